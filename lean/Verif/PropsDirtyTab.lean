import Verif.DirtyScan
import Verif.PropsFileFail

/-!
# Property C93: which texts fail in memory that is not zero

The consequence of the defect described in C18 for the strings in the table, for texts with any number of S* substrings
(C45: the head record; C91, C92: texts with one S* substring).
-/

namespace Flbwt

open HashTable (ok_bind nb)

/-- **C93** (violation of what a user expects) If some S* substring has a length that is a multiple of 256, and is the last
one or 512 bytes or longer, and no S* substring has a length that is a multiple of 65536, and the bytes in memory handed out by
`realloc` are between `lo` and `up`, then `bwt_string` does not return: it accesses memory outside its table (or, if `realloc`
is refused, the null pointer). Nothing is assumed about the other S* substrings, `std::sort` or the order of the hash buckets.
The bounds: `lo` is at least 13, and the memory is less than `lo` times 2^56 bytes and such that a length of `up + 1` times
2^56 does not wrap around. -/
theorem C93_any_limit (w : World) (T : Mem Nat) (s : List Nat) (h3 : 3 ≤ s.length) (h57 : s.length < 2 ^ 57)
    (hb : ∀ c ∈ s, c < 256) (hT : HoldsString T s) (lo up : Nat) (hlo : 13 ≤ lo) (hlu : lo ≤ up)
    (hjunk : ∀ i, lo ≤ w.junk i % 256 ∧ w.junk i % 256 ≤ up) (hlim : w.junk.lim ≤ lo * 2 ^ 56)
    (hlim2 : w.junk.lim + (up + 2) * 2 ^ 56 ≤ 2 ^ 64) (h64 : ∀ i j, SStar s i → NextStar s i j → (j - i + 1) % 65536 ≠ 0)
    (i j : Nat) (hi : SStar s i) (hj : NextStar s i j) (hm : (j - i + 1) % 256 = 0) (hlong : 512 ≤ j - i + 1 ∨ j = s.length)
    (freeT : Bool) :
    bwtString w (some T) s.length freeT = .error (.ub .outOfBounds) ∨
      bwtString w (some T) s.length freeT = .error (.ub .nullDeref) := by
  have I := hT.input h3 h57 hb (hT.term_lt h3 hb)
  have hn := (hT.next hi).1 hj
  obtain ⟨e, he, h⟩ := bwt_poison w I ⟨hlo, hlu, hlim, hlim2⟩ (Nat.le_refl _) hjunk
    (fun a ha => h64 a _ ((hT.sstar a).2 ha) ((hT.next ((hT.sstar a).2 ha)).2 rfl))
    ⟨i, (hT.sstar i).1 hi, by rw [hn]; exact hm, by rw [hn]; exact hlong⟩ freeT
  rcases h with rfl | rfl
  · exact Or.inl he
  · exact Or.inr he

/-- **C93** the same for bytes between 13 and 241, each of them arbitrary, and less than 13 times 2^56 bytes of memory. -/
theorem C93_star_length_256 (w : World) (T : Mem Nat) (s : List Nat) (h3 : 3 ≤ s.length) (h57 : s.length < 2 ^ 57)
    (hb : ∀ c ∈ s, c < 256) (hT : HoldsString T s) (hjunk : ∀ i, 13 ≤ w.junk i % 256 ∧ w.junk i % 256 ≤ 241)
    (hlim : w.junk.lim ≤ 13 * 2 ^ 56) (h64 : ∀ i j, SStar s i → NextStar s i j → (j - i + 1) % 65536 ≠ 0)
    (i j : Nat) (hi : SStar s i) (hj : NextStar s i j) (hm : (j - i + 1) % 256 = 0) (hlong : 512 ≤ j - i + 1 ∨ j = s.length)
    (freeT : Bool) :
    bwtString w (some T) s.length freeT = .error (.ub .outOfBounds) ∨
      bwtString w (some T) s.length freeT = .error (.ub .nullDeref) :=
  C93_any_limit w T s h3 h57 hb hT 13 241 (by omega) (by omega) hjunk hlim (by omega) h64 i j hi hj hm hlong freeT

/-- **C93** the condition `NoLength256` of C01 is exact: for a text none of whose S* substrings has a length that is a multiple
of 65536, and none but the last has length 256, the call returns the transform in every environment (every `std::sort` that
sorts, every contents of fresh memory, enough memory) if and only if no stored string has a length that is a multiple of
256. -/
theorem C93_exact_condition (T : Mem Nat) (s : List Nat) (h3 : 3 ≤ s.length) (h57 : s.length < 2 ^ 57)
    (hb : ∀ c ∈ s, c < 256) (hT : HoldsString T s) (h64 : ∀ i j, SStar s i → NextStar s i j → (j - i + 1) % 65536 ≠ 0)
    (h256 : ∀ i j, SStar s i → NextStar s i j → j - i + 1 = 256 → j = s.length) (freeT : Bool) :
    NoLength256 s ↔ ∀ w : World, SortsOK w.sorter → enoughFor s.length ≤ w.junk.lim →
      ∃ r T', bwtString w (some T) s.length freeT = .ok (some r, T') ∧ IsBWT s r.bwt.data r.last := by
  constructor
  · intro hno w hS hroom
    obtain ⟨r, T', e, _, h⟩ := C01_bwt_string_correct w ⟨h3, h57, hb, hT, hS, Or.inr hno, hroom⟩ freeT
    exact ⟨r, T', e, h⟩
  · intro hall i j hi hj hm
    let w : World := ⟨⟨fun _ => 127, enoughFor s.length⟩, fun _ => 0, fun _ => 0, fun _ => 0, fun _ _ => 0, fun _ _ _ _ => 0, fun _ => 0, 0, insSort⟩
    obtain ⟨r, T', e, _⟩ := hall w insSort_ok (Nat.le_refl _)
    by_cases hstar : ∀ i j, SStar s i → NextStar s i j → (j - i + 1) % 256 ≠ 0
    · rcases hi with rfl | hi
      · have := C45_head_length_256 w T s h3 h57 hb hT insSort_ok hstar j hj (by omega) (fun _ => by show 13 ≤ 127 % 256; omega)
          (Nat.le_refl _) freeT
        rw [this] at e; cases e
      · exact hstar i j hi hj hm
    · have : ∃ i j, SStar s i ∧ NextStar s i j ∧ (j - i + 1) % 256 = 0 := by
        by_contra hc
        exact hstar (fun i j a b c => hc ⟨i, j, a, b, c⟩)
      obtain ⟨i, j, a, b, c⟩ := this
      have hlim : w.junk.lim ≤ 127 * 2 ^ 56 := by
        show enoughFor s.length ≤ _
        unfold enoughFor; omega
      have hl : 512 ≤ j - i + 1 ∨ j = s.length := by
        by_cases hc : j - i + 1 = 256
        · exact Or.inr (h256 i j a b hc)
        · exact Or.inl (by omega)
      rcases C93_any_limit w T s h3 h57 hb hT 127 127 (by omega) (by omega) (fun _ => by show 127 ≤ 127 % 256 ∧ 127 % 256 ≤ 127; omega) hlim (by omega) h64 i j a b c hl freeT with h | h
      · rw [h] at e; cases e
      · rw [h] at e; cases e

/-- **C93** for files: `bwt_file` ends the same way; no file has been touched. -/
theorem C93_star_length_256_file (w : World) (h : Host) (inp out : String) (s : FState) {content : List Nat} (h3 : 3 ≤ content.length)
    (h57 : content.length < 2 ^ 57) (hb : ∀ c ∈ content, c < 256)
    (hjunk : ∀ i, 13 ≤ w.junk i % 256 ∧ w.junk i % 256 ≤ 241) (hlim : w.junk.lim ≤ 13 * 2 ^ 56)
    (h64 : ∀ i j, SStar content i → NextStar content i j → (j - i + 1) % 65536 ≠ 0)
    (i j : Nat) (hi : SStar content i) (hj : NextStar content i j) (hm : (j - i + 1) % 256 = 0)
    (hlong : 512 ≤ j - i + 1 ∨ j = content.length)
    (hf : s.files inp = some content) (hr : h.mayRead inp = true) (ht : h.tell content = content.length)
    (hma : h.mallocOk (content.length + 1) = true) (hk : content.length ≤ h.readMax) :
    ∃ u s', bwtFile w h inp out s = (.error (.ub u), s') ∧ (u = .outOfBounds ∨ u = .nullDeref) ∧ s'.files = s.files := by
  obtain ⟨T, hT, _, key⟩ := bwtFile_via h inp out s hf hr ht hma hk (by omega) (by omega)
  rcases C93_star_length_256 w T content h3 h57 hb hT hjunk hlim h64 i j hi hj hm hlong true with e | e
  · exact ⟨_, _, (key w).1 _ e, Or.inl rfl, rfl⟩
  · exact ⟨_, _, (key w).1 _ e, Or.inr rfl, rfl⟩

/-! ### Consequences -/

/-- In `b a c c ... c a d` with `a < b`, `a < c` and `a < d` the S* positions are those of the two `a`. -/
theorem sstar_bacad {a b c d k : Nat} (hab : a < b) (hac : a < c) (had : a < d) (hk : 1 ≤ k) (q : Nat) :
    SStar (b :: a :: (List.replicate k c ++ [a, d])) q ↔ q = 1 ∨ q = k + 2 := by
  have h0 : ¬ SType (b :: a :: (List.replicate k c ++ [a, d])) 0 := by
    unfold SType
    rw [List.drop_zero, List.drop_succ_cons, List.drop_zero, List.cons_lt_cons_iff]
    omega
  have h1 : SType (b :: a :: (List.replicate k c ++ [a, d])) 1 := by
    obtain ⟨j, rfl⟩ : ∃ j, k = j + 1 := ⟨k - 1, by omega⟩
    unfold SType
    rw [List.drop_succ_cons, List.drop_zero, List.drop_succ_cons, List.drop_succ_cons, List.drop_zero, List.replicate_succ,
      List.cons_append, List.cons_lt_cons_iff]
    exact Or.inl hac
  have hno : ∀ m, ¬ List.replicate (m + 1) c ++ [a, d] < List.replicate m c ++ [a, d] := by
    intro m
    induction m with
    | zero =>
      show ¬ c :: [a, d] < a :: [d]
      rw [List.cons_lt_cons_iff]; omega
    | succ m ih =>
      rw [List.replicate_succ (n := m + 1), List.replicate_succ (n := m), List.cons_append, List.cons_append, List.cons_lt_cons_iff]
      rintro (h | ⟨_, h⟩)
      · omega
      · rw [List.replicate_succ] at ih; exact ih h
  have hdrop : ∀ i, i ≤ k → (b :: a :: (List.replicate k c ++ [a, d])).drop (i + 2) = List.replicate (k - i) c ++ [a, d] := by
    intro i hi
    rw [List.drop_succ_cons, List.drop_succ_cons, List.drop_append_of_le_length (by rw [List.length_replicate]; exact hi), List.drop_replicate]
  have h2 : ∀ i, i < k → ¬ SType (b :: a :: (List.replicate k c ++ [a, d])) (i + 2) := by
    intro i hi
    unfold SType
    rw [hdrop i (by omega), show i + 2 + 1 = (i + 1) + 2 by omega, hdrop (i + 1) (by omega), show k - i = (k - (i + 1)) + 1 by omega]
    exact hno _
  have hk0 : (b :: a :: (List.replicate k c ++ [a, d])).drop (k + 2) = [a, d] := by
    rw [hdrop k (Nat.le_refl _), Nat.sub_self]; rfl
  have hk1 : (b :: a :: (List.replicate k c ++ [a, d])).drop (k + 2 + 1) = [d] := by
    rw [← List.drop_drop, hk0]; rfl
  have h3 : SType (b :: a :: (List.replicate k c ++ [a, d])) (k + 2) := by
    unfold SType
    rw [hk0, hk1, List.cons_lt_cons_iff]; exact Or.inl had
  have hlen : (b :: a :: (List.replicate k c ++ [a, d])).length = k + 4 := by simp
  have h4 : ¬ SType (b :: a :: (List.replicate k c ++ [a, d])) (k + 3) := by
    unfold SType
    rw [show k + 3 = k + 2 + 1 by omega, hk1, List.drop_eq_nil_of_le (by omega)]
    simp
  constructor
  · rintro ⟨g1, g2, g3, g4⟩
    rw [hlen] at g2
    by_cases c1 : q = 1
    · exact Or.inl c1
    by_cases c2 : q = k + 2
    · exact Or.inr c2
    exfalso
    by_cases c3 : q = k + 3
    · rw [c3] at g3; exact h4 g3
    · have := h2 (q - 2) (by omega)
      rw [show q - 2 + 2 = q by omega] at this
      exact this g3
  · rintro (rfl | rfl)
    · exact ⟨by omega, by omega, h1, h0⟩
    · refine ⟨by omega, by omega, h3, ?_⟩
      have := h2 (k - 1) (by omega)
      rw [show k - 1 + 2 = k + 2 - 1 by omega] at this
      exact this

/-- In `b a c c ... c a c` with `a < b` and `a < c` the S* positions are those of the two `a`. -/
theorem sstar_bacac {a b c k : Nat} (hab : a < b) (hac : a < c) (hk : 1 ≤ k) (q : Nat) :
    SStar (b :: a :: (List.replicate k c ++ [a, c])) q ↔ q = 1 ∨ q = k + 2 := sstar_bacad hab hac hac hk q

theorem bacac_bytes {a b c k : Nat} (hb : b < 256) (hc : c < 256) (hab : a < b) : ∀ x ∈ b :: a :: (List.replicate k c ++ [a, c]), x < 256 := by
  intro x hx
  simp only [List.mem_cons, List.mem_append, List.not_mem_nil, or_false] at hx
  rcases hx with rfl | rfl | hx | rfl | rfl
  · exact hb
  · omega
  · rw [List.eq_of_mem_replicate hx]; exact hc
  · omega
  · exact hc

/-- **C93** the strings `b a c c ... c a c` (`a < b`, `a < c`) with `m - 2` middle `c`, `m` a multiple of 256, at least 512 and
not a multiple of 65536: the first of the two S* substrings breaks the call. -/
theorem C93_bacac (w : World) (a b c m : Nat) (hab : a < b) (hac : a < c) (hb : b < 256) (hc : c < 256) (hn : m + 2 < 2 ^ 57)
    (h512 : 512 ≤ m) (hm : m % 256 = 0) (hm2 : m % 65536 ≠ 0) (hjunk : ∀ i, 13 ≤ w.junk i % 256 ∧ w.junk i % 256 ≤ 241)
    (hlim : w.junk.lim ≤ 13 * 2 ^ 56) (freeT : Bool) :
    bwtString w (some (cString (b :: a :: (List.replicate (m - 2) c ++ [a, c])))) (m + 2) freeT = .error (.ub .outOfBounds) ∨
      bwtString w (some (cString (b :: a :: (List.replicate (m - 2) c ++ [a, c])))) (m + 2) freeT = .error (.ub .nullDeref) := by
  have hl : (b :: a :: (List.replicate (m - 2) c ++ [a, c])).length = m + 2 := by
    simp only [List.length_cons, List.length_append, List.length_replicate, List.length_nil]; omega
  have hst := sstar_bacac (k := m - 2) hab hac (by omega)
  have hnext1 : NextStar (b :: a :: (List.replicate (m - 2) c ++ [a, c])) 1 m :=
    ⟨by omega, by omega, Or.inr ((hst m).2 (by omega)), fun k k1 k2 hk => by have := (hst k).1 hk; omega⟩
  have := C93_star_length_256 w (cString (b :: a :: (List.replicate (m - 2) c ++ [a, c]))) (b :: a :: (List.replicate (m - 2) c ++ [a, c]))
    (by omega) (by omega) (bacac_bytes hb hc hab) (cString_holds _) hjunk hlim (by
      rintro i j hi ⟨j1, j2, j3, j4⟩
      have hi' := (hst i).1 hi
      rcases hi' with rfl | rfl
      · have h5 : j ≤ m := by
          by_contra hc
          exact j4 m (by omega) (by omega) ((hst m).2 (by omega))
        have h6 : j = m := by
          rcases j3 with j3 | j3
          · omega
          · have := (hst j).1 j3; omega
        omega
      · omega) 1 m ((hst 1).2 (Or.inl rfl)) hnext1 (by omega) (Or.inl (by omega)) freeT
  rwa [hl] at this

/-- "ba", 510 times "c", "ac"; fresh bytes 100, 101, ..., 149, 100, ... -/
example : bwtString ⟨⟨fun i => 100 + i % 50, 40000000⟩, fun _ => 9, fun _ => 5, fun _ => 7, fun _ _ => 1, fun _ _ _ _ => 2, fun _ => 3, 4, insSort⟩
      (some (cString (98 :: 97 :: (List.replicate (512 - 2) 99 ++ [97, 99])))) 514 true = .error (.ub .outOfBounds) ∨
    bwtString ⟨⟨fun i => 100 + i % 50, 40000000⟩, fun _ => 9, fun _ => 5, fun _ => 7, fun _ _ => 1, fun _ _ _ _ => 2, fun _ => 3, 4, insSort⟩
      (some (cString (98 :: 97 :: (List.replicate (512 - 2) 99 ++ [97, 99])))) 514 true = .error (.ub .nullDeref) :=
  C93_bacac _ 97 98 99 512 (by omega) (by omega) (by omega) (by omega) (by omega) (by omega) (by omega) (by omega)
    (fun i => by show 13 ≤ (100 + i % 50) % 256 ∧ (100 + i % 50) % 256 ≤ 241; omega) (by show 40000000 ≤ _; omega) true

/-- The exact condition applies to the strings `b a c c ... c a c` with a middle of 512 bytes: they fail in some memory. -/
example : ¬ ∀ w : World, SortsOK w.sorter → enoughFor 514 ≤ w.junk.lim →
    ∃ r T', bwtString w (some (cString (98 :: 97 :: (List.replicate (512 - 2) 99 ++ [97, 99])))) 514 true = .ok (some r, T') ∧
      IsBWT (98 :: 97 :: (List.replicate (512 - 2) 99 ++ [97, 99])) r.bwt.data r.last := by
  intro h
  obtain ⟨r, T', e, _⟩ := h ⟨⟨fun i => 100 + i % 50, 40000000⟩, fun _ => 9, fun _ => 5, fun _ => 7, fun _ _ => 1, fun _ _ _ _ => 2, fun _ => 3, 4, insSort⟩
    insSort_ok (by decide)
  rcases C93_bacac ⟨⟨fun i => 100 + i % 50, 40000000⟩, fun _ => 9, fun _ => 5, fun _ => 7, fun _ _ => 1, fun _ _ _ _ => 2, fun _ => 3, 4, insSort⟩ 97 98 99 512
    (by omega) (by omega) (by omega) (by omega) (by omega) (by omega) (by omega) (by omega)
    (fun i => by show 13 ≤ (100 + i % 50) % 256 ∧ (100 + i % 50) % 256 ≤ 241; omega) (by show 40000000 ≤ _; omega) true with h | h
  · rw [h] at e; cases e
  · rw [h] at e; cases e

/-- "banana" meets the hypotheses of the exact condition, and no stored string of it has a length that is a multiple of 256. -/
example : (∀ i j, SStar banana i → NextStar banana i j → (j - i + 1) % 65536 ≠ 0) ∧
    (∀ i j, SStar banana i → NextStar banana i j → j - i + 1 = 256 → j = banana.length) ∧ NoLength256 banana := by
  have hl : banana.length = 6 := rfl
  refine ⟨?_, ?_, ?_⟩
  · rintro i j hi ⟨h1, h2, _⟩; rw [hl] at h2; omega
  · rintro i j hi ⟨h1, h2, _⟩; rw [hl] at h2; omega
  · rintro i j hi ⟨h1, h2, _⟩; rw [hl] at h2; omega

end Flbwt
