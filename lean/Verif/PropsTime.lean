import Verif.PropsTop
import Mathlib.Data.List.Perm.Subperm
import Mathlib.Combinatorics.Pigeonhole
import Mathlib.Data.Finset.Range

/-!
# Property C52: the searches in the hash table are not linear in the length of the string

The counter `collisions` of the table is incremented by every iteration of the scanning loop of `insert_string` that
does not end the search (src/hashtable.cpp:59, 66, 82), so the running time of `extract_LMS_strings` is at least its
final value.
-/

namespace Flbwt

open HashTable (ok_bind Has)

/-- A block of the bad strings: a 1 and 66 increasing bytes, one of two for every bit of `x`. -/
def badBlock (x : Nat) : List Nat := 1 :: (List.range 66).map (fun j => 2 + 2 * j + x / 2 ^ j % 2)

/-- The bad strings: blocks one after the other. -/
def badText (l : List Nat) : List Nat := l.flatMap badBlock

theorem badBlock_length (x : Nat) : (badBlock x).length = 67 := by simp [badBlock]

theorem badText_length (l : List Nat) : (badText l).length = 67 * l.length := by
  induction l with
  | nil => rfl
  | cons a l ih =>
    unfold badText at ih ⊢
    rw [List.flatMap_cons, List.length_append, badBlock_length, ih, List.length_cons]; omega

theorem badBlock_lt (x : Nat) : ∀ c ∈ badBlock x, c < 256 := by
  intro c hc
  rcases List.mem_cons.1 hc with rfl | hc
  · omega
  · obtain ⟨j, hj, rfl⟩ := List.mem_map.1 hc
    rw [List.mem_range] at hj
    have := Nat.mod_lt (x / 2 ^ j) (show 0 < 2 by omega)
    omega

theorem badText_lt (l : List Nat) : ∀ c ∈ badText l, c < 256 := by
  intro c hc
  obtain ⟨x, _, hx⟩ := List.mem_flatMap.1 hc
  exact badBlock_lt x c hx

theorem badText_get (l : List Nat) : ∀ (b j : Nat) (hb : b < l.length), j < 67 → 
    (badText l)[67 * b + j]? = (badBlock l[b])[j]? := by
  induction l with
  | nil => intro b j hb; simp at hb
  | cons a l ih =>
    intro b j hb hj
    have e : badText (a :: l) = badBlock a ++ badText l := by unfold badText; rw [List.flatMap_cons]
    rw [e, List.getElem?_append, badBlock_length]
    cases b with
    | zero => rw [if_pos (by omega)]; simp
    | succ b =>
      rw [if_neg (by omega)]
      have := ih b j (by simpa using hb) hj
      rw [show 67 * (b + 1) + j - 67 = 67 * b + j by omega, this]
      simp

/-- different blocks are different -/
theorem bits_inj : ∀ (d : Nat) (x y : Nat), x < 2 ^ d → y < 2 ^ d → (∀ j, j < d → x / 2 ^ j % 2 = y / 2 ^ j % 2) → x = y := by
  intro d
  induction d with
  | zero => intro x y hx hy _; simp at hx hy; omega
  | succ d ih =>
    intro x y hx hy h
    have h0 := h 0 (by omega)
    simp only [Nat.pow_zero, Nat.div_one] at h0
    rw [Nat.pow_succ] at hx hy
    have := ih (x / 2) (y / 2) (by omega) (by omega) (fun j hj => by
      have := h (j + 1) (by omega)
      rw [Nat.pow_succ, Nat.mul_comm, ← Nat.div_div_eq_div_mul, ← Nat.div_div_eq_div_mul] at this
      exact this)
    omega

theorem badBlock_inj {x y : Nat} (hx : x < 2 ^ 66) (hy : y < 2 ^ 66) (h : badBlock x = badBlock y) : x = y := by
  refine bits_inj 66 x y hx hy (fun j hj => ?_)
  have := congrArg (fun l : List Nat => l[j + 1]?) h
  simp only [badBlock, List.getElem?_cons_succ, List.getElem?_map, List.getElem?_range hj, Option.map_some, Option.some_inj] at this
  omega

section
variable {T : Mem Nat} {l : List Nat}

theorem bad_at (h : HoldsString T (badText l)) {b : Nat} (hb : b < l.length) :
    T.data (67 * b) = 1 ∧ ∀ j, j < 66 → T.data (67 * b + 1 + j) = 2 + 2 * j + l[b] / 2 ^ j % 2 := by
  have key : ∀ j, j < 67 → some (T.data (67 * b + j)) = (badBlock l[b])[j]? := by
    intro j hj
    have hl := badText_length l
    have hlt : 67 * b + j < (badText l).length := by omega
    rw [h.val _ hlt, ← List.getElem?_eq_getElem, badText_get l b j hb hj]
  constructor
  · have := key 0 (by omega)
    simpa [badBlock] using this
  · intro j hj
    have := key (j + 1) (by omega)
    rw [show 67 * b + (j + 1) = 67 * b + 1 + j by omega] at this
    simpa [badBlock, List.getElem?_range hj] using this

theorem bad_S (h : HoldsString T (badText l)) {b j : Nat} (hb : b < l.length) (hj : j < 66) :
    isS T.data (67 * l.length) (67 * b + j) = true := by
  rw [S_iff (by omega)]
  refine ⟨by omega, Or.inl ?_⟩
  obtain ⟨h0, h1⟩ := bad_at h hb
  have := h1 j hj
  rw [show 67 * b + j + 1 = 67 * b + 1 + j by omega, this]
  rcases Nat.eq_zero_or_pos j with rfl | hp
  · rw [Nat.add_zero, h0]; omega
  · obtain ⟨i, rfl⟩ : ∃ i, j = i + 1 := ⟨j - 1, by omega⟩
    have h2 := h1 i (by omega)
    rw [show 67 * b + 1 + i = 67 * b + (i + 1) by omega] at h2
    rw [h2]
    have := Nat.mod_lt (l[b] / 2 ^ i) (show 0 < 2 by omega)
    omega

theorem bad_L (h : HoldsString T (badText l)) {b : Nat} (hb : b + 1 < l.length) :
    isS T.data (67 * l.length) (67 * b + 66) = false := by
  rw [L_iff (by omega)]
  refine Or.inr ⟨by omega, Or.inl ?_⟩
  obtain ⟨h0, _⟩ := bad_at h hb
  obtain ⟨_, h1⟩ := bad_at h (show b < l.length by omega)
  have := h1 65 (by omega)
  rw [show 67 * b + 66 + 1 = 67 * (b + 1) by omega, h0, show 67 * b + 66 = 67 * b + 1 + 65 by omega, this]
  omega

theorem bad_lms (h : HoldsString T (badText l)) (p : Nat) : isLMS T.data (67 * l.length) p ↔
    ∃ b, 0 < b ∧ b < l.length ∧ p = 67 * b := by
  constructor
  · rintro ⟨h1, h2, h3, h4⟩
    have hb : (p - 1) / 67 < l.length := by omega
    by_cases hj : (p - 1) % 67 < 66
    · have := bad_S h hb hj
      rw [show 67 * ((p - 1) / 67) + (p - 1) % 67 = p - 1 by omega, h4] at this
      cases this
    · refine ⟨(p - 1) / 67 + 1, by omega, by omega, by omega⟩
  · rintro ⟨b, h1, h2, rfl⟩
    refine ⟨by omega, by omega, ?_, ?_⟩
    · have := bad_S h h2 (show 0 < 66 by omega)
      rwa [Nat.add_zero] at this
    · obtain ⟨a, rfl⟩ : ∃ a, b = a + 1 := ⟨b - 1, by omega⟩
      have := bad_L h h2
      rwa [show 67 * (a + 1) - 1 = 67 * a + 66 by omega]

theorem bad_nx (h : HoldsString T (badText l)) {b : Nat} (h0 : 0 < b) (hb : b < l.length) :
    nx T.data (67 * l.length) (67 * b) = 67 * (b + 1) := by
  refine nx_eq ((bad_lms h _).2 ⟨b, h0, hb, rfl⟩) (by omega) (by omega) ?_ ?_
  · by_cases he : b + 1 = l.length
    · left; rw [he]
    · right; exact (bad_lms h _).2 ⟨b + 1, by omega, by omega, rfl⟩
  · intro q q1 q2 hq
    obtain ⟨c, c1, c2, rfl⟩ := (bad_lms h _).1 hq
    omega

theorem bad_wstr (h : HoldsString T (badText l)) {b : Nat} (h0 : 0 < b) (hb : b + 1 < l.length) :
    wstr T.data (67 * l.length) (67 * b) = badBlock l[b] ++ [1] := by
  unfold wstr
  rw [bad_nx h h0 (by omega), show 67 * (b + 1) - 67 * b + 1 = 68 by omega]
  apply List.ext_getElem?
  intro j
  obtain ⟨e0, e1⟩ := bad_at h (show b < l.length by omega)
  obtain ⟨f0, _⟩ := bad_at h hb
  rw [List.getElem?_map, List.getElem?_append, badBlock_length]
  by_cases h1 : j < 68
  · rw [List.getElem?_range' h1, Option.map_some, Nat.one_mul]
    by_cases h2 : j < 67
    · rw [if_pos h2]
      rcases Nat.eq_zero_or_pos j with rfl | hp
      · rw [Nat.add_zero, e0]; simp [badBlock]
      · obtain ⟨i, rfl⟩ : ∃ i, j = i + 1 := ⟨j - 1, by omega⟩
        rw [show 67 * b + (i + 1) = 67 * b + 1 + i by omega, e1 i (by omega)]
        simp [badBlock, List.getElem?_range (show i < 66 by omega)]
    · have : j = 67 := by omega
      subst this
      rw [if_neg h2, show 67 * b + 67 = 67 * (b + 1) by omega, f0]
      rfl
  · rw [if_neg (by omega)]
    rw [List.getElem?_eq_none (by simp; omega), List.getElem?_eq_none (by simp; omega)]
    rfl

end

/-- No string stored for a bad text has a length that is a multiple of 256: they all have 68 bytes. -/
theorem bad_safe (l : List Nat) (hl : 2 ≤ l.length) : NoLength256 (badText l) := by
  have h := cString_holds (badText l)
  have hlen := badText_length l
  have star : ∀ p, SStar (badText l) p ↔ ∃ b, 0 < b ∧ b < l.length ∧ p = 67 * b := by
    intro p; rw [h.sstar, hlen, bad_lms h]
  rintro i j hi ⟨h1, h2, h3, h4⟩
  obtain ⟨b, hb, rfl⟩ : ∃ b, b < l.length ∧ i = 67 * b := by
    rcases hi with rfl | hi
    · exact ⟨0, by omega, rfl⟩
    · obtain ⟨b, _, b2, b3⟩ := (star i).1 hi; exact ⟨b, b2, b3⟩
  have hj : ∃ c, j = 67 * c := by
    rcases h3 with h3 | h3
    · exact ⟨l.length, by omega⟩
    · obtain ⟨c, _, _, c3⟩ := (star j).1 h3; exact ⟨c, c3⟩
  obtain ⟨c, rfl⟩ := hj
  have : c = b + 1 := by
    by_contra hne
    exact h4 (67 * (b + 1)) (by omega) (by omega) ((star _).2 ⟨b + 1, by omega, by omega, rfl⟩)
  subst this
  rw [show 67 * (b + 1) - 67 * b + 1 = 68 by omega]
  omega

/-- Among enough numbers there are `k` different ones that `f` puts in the same of `m` classes. -/
theorem same_class (f : Nat → Nat) (m k N : Nat) (hm : 0 < m) (hf : ∀ x, f x < m) (hN : m * k ≤ N) :
    ∃ (h : Nat) (l : List Nat), l.length = k ∧ l.Nodup ∧ ∀ x ∈ l, x < N ∧ f x = h := by
  obtain ⟨h, _, hc⟩ := Finset.exists_le_card_fiber_of_mul_le_card_of_maps_to (s := Finset.range N) (t := Finset.range m)
    (f := f) (n := k) (fun x _ => Finset.mem_range.2 (hf x)) ⟨0, Finset.mem_range.2 hm⟩
    (by rw [Finset.card_range, Finset.card_range]; exact hN)
  obtain ⟨t, ht, hcard⟩ := Finset.exists_subset_card_eq hc
  refine ⟨h, t.toList, by rw [Finset.length_toList, hcard], t.nodup_toList, fun x hx => ?_⟩
  have := Finset.mem_filter.1 (ht (Finset.mem_toList.1 hx))
  exact ⟨Finset.mem_range.1 this.1, this.2⟩

/-- **C52** For every `k ≤ 2^49` there is a string of `67·(k + 2)` bytes on which the scanning loop of `insert_string`
visits at least `k·(k-1)/2` other records in total, whatever the memory contains and however `std::sort` works: the
number of steps of `bwt_string` grows with the square of the length. -/
theorem C52_quadratic_searches (k : Nat) (hk : k ≤ 2 ^ 49) : ∃ s : List Nat, s.length = 67 * (k + 2) ∧ (∀ c ∈ s, c < 256) ∧
    NoLength256 s ∧
    ∀ (junk : Fresh) (sorter : Sorter) (T : Mem Nat), GoodCall junk sorter T s →
      ∃ ct ht, extractLMS junk T s.length = .ok ct ∧ ct.hashtable = some ht ∧ k * (k - 1) ≤ 2 * ht.collisions := by
  obtain ⟨h, l, hlk, hnd, hl⟩ := same_class (fun x => HashTable.hashL 67777 (badBlock x ++ [1])) 67777 k (2 ^ 66)
    (by omega) (fun x => HashTable.hashL_lt (by omega) _) (by
      have : 67777 * k ≤ 2 ^ 17 * 2 ^ 49 := Nat.mul_le_mul (by norm_num) hk
      have e : (2 : Nat) ^ 66 = 2 ^ 17 * 2 ^ 49 := by norm_num
      rw [e]; exact this)
  refine ⟨badText (0 :: (l ++ [0])), ?_, badText_lt _, bad_safe _ (by simp), ?_⟩
  · rw [badText_length]; simp [hlk]
  intro junk sorter T g
  obtain ⟨ct, e, ht, E⟩ := Tot_iff.1 (extractLMS_spec g.inp g.len.lms)
  refine ⟨ct, ht, e, E.htab, ?_⟩
  obtain ⟨own, ents, E', t, hset, _, hcl⟩ := E.hok.tab
  have hts := E.hok.cap.1
  have hm := g.mem
  have hlen := badText_length (0 :: (l ++ [0]))
  have hsub : (l.map (fun x => badBlock x ++ [1])).length ≤ ((ents h).map Prod.snd).length := by
    apply List.Subperm.length_le
    apply List.Nodup.subperm
    · refine (List.nodup_map_iff_inj_on hnd).2 ?_
      intro x hx y hy hxy
      exact badBlock_inj (hl x hx).1 (hl y hy).1 (List.append_cancel_right hxy)
    · intro w hw
      obtain ⟨x, hx, rfl⟩ := List.mem_map.1 hw
      obtain ⟨i, hi, hix⟩ := List.mem_iff_getElem.1 hx
      have hin : i + 1 + 1 < (0 :: (l ++ [0])).length := by simp; omega
      have hget : (0 :: (l ++ [0]))[i + 1] = x := by
        rw [List.getElem_cons_succ, List.getElem_append_left hi, hix]
      have := (hset (badBlock x ++ [1])).2 ⟨67 * (i + 1), trivial, by
        rw [hlen]
        exact (bad_lms hm _).2 ⟨i + 1, by omega, by omega, rfl⟩, by
        rw [hlen, bad_wstr hm (by omega) hin, hget]⟩
      unfold Has at this
      rw [hts, show HashTable.hashL 67777 (badBlock x ++ [1]) = h from (hl x hx).2] at this
      exact this
  rw [List.length_map, List.length_map, hlk] at hsub
  have h1 := hcl h
  have h2 : (ents h).length * ((ents h).length - 1) ≤ 2 * ht.collisions := by
    rw [Nat.mul_sub_one]; omega
  exact le_trans (Nat.mul_le_mul hsub (by omega)) h2

/-- **C52** No constant up to `2^40` bounds the number of records visited per byte of the input; and every block that
holds the string, with enough memory, is a call the theorem speaks about. -/
theorem C52_not_linear (c : Nat) (hc : c ≤ 2 ^ 40) : ∃ s : List Nat,
    (∀ (junk : Fresh) (sorter : Sorter) (T : Mem Nat), HoldsString T s → SortsOK sorter → enoughFor s.length ≤ junk.lim →
      GoodCall junk sorter T s) ∧
    ∀ (junk : Fresh) (sorter : Sorter) (T : Mem Nat), GoodCall junk sorter T s →
      ∃ ct ht, extractLMS junk T s.length = .ok ct ∧ ct.hashtable = some ht ∧ c * s.length < ht.collisions := by
  have e1 : (2 : Nat) ^ 49 = 512 * 2 ^ 40 := by norm_num
  have e2 : (2 : Nat) ^ 57 = 131072 * 2 ^ 40 := by norm_num
  have e3 : (2 : Nat) ^ 40 = 1099511627776 := by norm_num
  obtain ⟨s, hs1, hs2, hs3, hs4⟩ := C52_quadratic_searches (134 * c + 272) (by omega)
  refine ⟨s, fun junk sorter T h1 h2 h3 => ⟨by omega, by omega, hs2, h1, h2, Or.inr hs3, h3⟩, fun junk sorter T g => ?_⟩
  obtain ⟨ct, ht, a1, a2, a3⟩ := hs4 junk sorter T g
  refine ⟨ct, ht, a1, a2, ?_⟩
  rw [hs1]
  have : 2 * (c * (67 * (134 * c + 272 + 2))) < (134 * c + 272) * (134 * c + 272 - 1) := by
    rw [show 134 * c + 272 - 1 = 134 * c + 271 by omega]
    ring_nf
    omega
  omega

/-- The hypotheses can be met: the string for `c = 1000`, zero terminated, sorted by insertion sort. -/
example : ∃ (s : List Nat) (junk : Fresh) (T : Mem Nat) (ct : Container) (ht : HashTable), GoodCall junk insSort T s ∧
    extractLMS junk T s.length = .ok ct ∧ ct.hashtable = some ht ∧ 1000 * s.length < ht.collisions := by
  obtain ⟨s, h1, h2⟩ := C52_not_linear 1000 (by norm_num)
  have g := h1 ⟨fun _ => 7, enoughFor s.length⟩ insSort (cString s) (cString_holds s) insSort_ok (Nat.le_refl _)
  obtain ⟨ct, ht, a, b, c⟩ := h2 _ _ _ g
  exact ⟨s, _, _, ct, ht, g, a, b, c⟩

end Flbwt
