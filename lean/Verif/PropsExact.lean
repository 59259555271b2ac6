import Verif.DirtyExact
import Verif.PropsDirtyTab

/-!
# Property C93, the exact condition

Which texts are transformed in every memory: a condition on the text alone, without side conditions.
-/

namespace Flbwt

open HashTable (ok_bind nb hashL)

/-! ### Specification -/

/-- The strings the library stores for the S* positions `p :: ps`, listed from right to left, when `q` is the next S* position to
the right of `p` (or the end of the text): the bytes from each position up to and including the next one. -/
def stored (T : Mem Nat) : Nat → List Nat → List (List Nat)
  | _, [] => []
  | q, p :: ps => (List.range (q - p + 1)).map (fun k => T.data (p + k)) :: stored T p ps

/-- Among the strings `ws`, inserted one after the other, no new string of a length that is a multiple of 256 opens a block of the
table (`plan`, `Plan.Opens`: Plan.lean), when names have `NB` bytes. -/
def BlocksSafe (NB : Nat) (ws : List (List Nat)) : Prop :=
  ∀ us w vs, ws = us ++ w :: vs → w.length % 256 = 0 → w ∉ us → ¬ (plan NB us).Opens NB w

/-! ### The specification and the strings of the model -/

theorem stored_eq {T : Mem Nat} {n : Nat} : ∀ {ps : List Nat} {q : Nat}, ps.Pairwise (· > ·) → q ≤ n → (q = n ∨ isLMS T.data n q) →
    (∀ x, x ∈ ps ↔ x < q ∧ isLMS T.data n x) → stored T q ps = ps.map (wstr T.data n) := by
  intro ps
  induction ps with
  | nil => intros; rfl
  | cons p ps ih =>
    intro q h1 h2 h3 h4
    rw [List.pairwise_cons] at h1
    have hp := (h4 p).1 (by simp)
    have hnx : nx T.data n p = q := by
      refine nx_eq hp.2 hp.1 h2 h3 ?_
      intro k k1 k2 hk
      rcases List.mem_cons.1 ((h4 k).2 ⟨k2, hk⟩) with h | h
      · omega
      · have := h1.1 k h; omega
    have hw : (List.range (q - p + 1)).map (fun k => T.data (p + k)) = wstr T.data n p := by
      unfold wstr
      rw [hnx]
      apply List.ext_getElem (by simp)
      intro j j1 j2
      simp
    rw [List.map_cons, ← hw]
    show _ :: stored T p ps = _
    rw [ih h1.2 (by omega) (Or.inr hp.2)]
    intro x
    constructor
    · intro hx
      exact ⟨h1.1 x hx, ((h4 x).1 (List.mem_cons_of_mem _ hx)).2⟩
    · rintro ⟨x1, x2⟩
      rcases List.mem_cons.1 ((h4 x).2 ⟨by omega, x2⟩) with h | h
      · omega
      · exact h

theorem wstr_length {T : Nat → Nat} {n p : Nat} : (wstr T n p).length = nx T n p - p + 1 := by
  unfold wstr; simp

theorem blocksSafe_iff {T : Mem Nat} {n : Nat} {ps : List Nat} (h1 : ps.Pairwise (· > ·)) (h2 : ∀ x, x ∈ ps ↔ isLMS T.data n x) :
    BlocksSafe (nb (n / 2 + 1)) (stored T n ps) ↔ NoOpen T.data n := by
  rw [stored_eq h1 (Nat.le_refl n) (Or.inl rfl) (fun x => by
    rw [h2]; exact ⟨fun h => ⟨h.2.1, h⟩, fun h => h.2⟩)]
  -- the positions to the right of a position
  have split : ∀ as p bs, ps = as ++ p :: bs → as.Pairwise (· > ·) ∧ isLMS T.data n p ∧ ∀ x, x ∈ as ↔ p < x ∧ isLMS T.data n x := by
    rintro as p bs rfl
    rw [List.pairwise_append, List.pairwise_cons] at h1
    obtain ⟨a1, ⟨a2, a3⟩, a4⟩ := h1
    refine ⟨a1, (h2 p).1 (by simp), ?_⟩
    intro x
    constructor
    · intro hx
      exact ⟨a4 x hx p (by simp), (h2 x).1 (by simp [hx])⟩
    · rintro ⟨x1, x2⟩
      rcases List.mem_append.1 ((h2 x).2 x2) with h | h
      · exact h
      · rcases List.mem_cons.1 h with h | h
        · omega
        · have := a2 x h; omega
  constructor
  · intro h p as b1 b2 b3 b4 b5
    obtain ⟨as', bs, hs⟩ := List.append_of_mem ((h2 p).2 b2)
    obtain ⟨c1, c2, c3⟩ := split as' p bs hs
    obtain rfl : as = as' := decreasing_ext b1 c1 (fun x => by rw [b3, c3])
    refine h (as.map (wstr T.data n)) (wstr T.data n p) (bs.map (wstr T.data n)) ?_ (by rw [wstr_length]; exact b4) b5
    rw [hs, List.map_append, List.map_cons]
  · intro h us w vs e1 e2 e3
    obtain ⟨as, l2, hs, rfl, e4⟩ := List.map_eq_append_iff.1 e1
    obtain ⟨p, bs, rfl, rfl, rfl⟩ := List.map_eq_cons_iff.1 e4
    obtain ⟨c1, c2, c3⟩ := split as p bs hs
    rw [wstr_length] at e2
    exact h p as c1 c2 c3 e2 e3

/-! ### The theorems -/

/-- **C93** (C01 under the weakest condition on the text) Let `ps` be the S* positions of the text, from right to left. If no new
string of a length that is a multiple of 256 opens a block of the table, and the head string (the bytes up to and including the
first S* position) does not have such a length, then `bwt_string` returns the transform: whatever memory contains, whatever
`std::sort` does with equal strings, and whether the text is released or not. -/
theorem C93_correct (w : World) (T : Mem Nat) (s : List Nat) (h3 : 3 ≤ s.length) (h57 : s.length < 2 ^ 57)
    (hb : ∀ c ∈ s, c < 256) (hT : HoldsString T s) (hS : SortsOK w.sorter) (hroom : enoughFor s.length ≤ w.junk.lim)
    (ps : List Nat) (hps : ps.Pairwise (· > ·)) (hstar : ∀ i, i ∈ ps ↔ SStar s i)
    (hsafe : BlocksSafe (nb (s.length / 2 + 1)) (stored T s.length ps)) (hhead : ∀ j, NextStar s 0 j → (j + 1) % 256 ≠ 0) (freeT : Bool) :
    ∃ r, bwtString w (some T) s.length freeT = .ok (some r, release freeT T) ∧ r.bwt.size = s.length + 1 ∧ IsBWT s r.bwt.data r.last := by
  have I := hT.input h3 h57 hb (hT.term_lt h3 hb)
  have hno := (blocksSafe_iff hps (fun x => by rw [hstar, hT.sstar])).1 hsafe
  have hmin : ∀ i, i < s.length → T.data s.length ≤ T.data i := fun i hi => by
    rw [hT.val i hi]; exact hT.term _ (List.getElem_mem hi)
  obtain ⟨⟨o, T'⟩, e, ⟨r, k1, k2⟩, k3⟩ := Tot_iff.1 (bwtIs_spec w I hmin
    ⟨hroom, Or.inr ⟨hno, hhead _ ((hT.first (by omega)).2 rfl)⟩⟩ hS freeT)
  simp only at k1 k3
  subst k1; subst k3
  refine ⟨r, ?_, k2.1, isBWT_of_rows hT k2⟩
  simp only [bwtString]
  rw [if_neg (by omega), e]

/-- **C93** for a text that does not meet the condition there is a memory in which the call accesses memory it does not own (with a
correct `std::sort` and enough memory). -/
theorem C93_fault (T : Mem Nat) (s : List Nat) (h3 : 3 ≤ s.length) (h57 : s.length < 2 ^ 57)
    (hb : ∀ c ∈ s, c < 256) (hT : HoldsString T s) (ps : List Nat) (hps : ps.Pairwise (· > ·)) (hstar : ∀ i, i ∈ ps ↔ SStar s i)
    (hnot : ¬ (BlocksSafe (nb (s.length / 2 + 1)) (stored T s.length ps) ∧ ∀ j, NextStar s 0 j → (j + 1) % 256 ≠ 0)) :
    ∃ w : World, SortsOK w.sorter ∧ w.junk.lim = enoughFor s.length ∧ ∀ freeT,
      bwtString w (some T) s.length freeT = .error (.ub .outOfBounds) ∨ bwtString w (some T) s.length freeT = .error (.ub .nullDeref) := by
  have I := hT.input h3 h57 hb (hT.term_lt h3 hb)
  by_cases hno : NoOpen T.data s.length
  · have : ∃ j, NextStar s 0 j ∧ (j + 1) % 256 = 0 := by
      by_contra hc
      exact hnot ⟨(blocksSafe_iff hps (fun x => by rw [hstar, hT.sstar])).2 hno, fun j hj hm => hc ⟨j, hj, hm⟩⟩
    obtain ⟨j, hj, hm⟩ := this
    refine ⟨⟨⟨fun _ => 127, enoughFor s.length⟩, fun _ => 0, fun _ => 0, fun _ => 0, fun _ _ => 0, fun _ _ _ _ => 0, fun _ => 0, 0, insSort⟩,
      insSort_ok, rfl, fun freeT => Or.inl ?_⟩
    exact head_dirty _ I ⟨Nat.le_refl _, Or.inr hno⟩ insSort_ok ((hT.first (by omega)).1 hj) hm (fun _ => by show 13 ≤ 127 % 256; omega) freeT
  · obtain ⟨J, hJ, h⟩ := bwt_open I hno
    refine ⟨⟨J, fun _ => 0, fun _ => 0, fun _ => 0, fun _ _ => 0, fun _ _ _ _ => 0, fun _ => 0, 0, insSort⟩, insSort_ok, hJ, fun freeT => ?_⟩
    obtain ⟨e, he, h⟩ := h ⟨J, fun _ => 0, fun _ => 0, fun _ => 0, fun _ _ => 0, fun _ _ _ _ => 0, fun _ => 0, 0, insSort⟩ rfl freeT
    rcases h with rfl | rfl
    · exact Or.inl he
    · exact Or.inr he

/-- **C93** the condition is exact, for every text: the call returns the transform in every environment (every `std::sort` that
sorts, every contents of fresh memory, enough memory) if and only if no new string of a length that is a multiple of 256 opens a
block of the table and the length of the head string is not a multiple of 256. -/
theorem C93_exact (T : Mem Nat) (s : List Nat) (h3 : 3 ≤ s.length) (h57 : s.length < 2 ^ 57)
    (hb : ∀ c ∈ s, c < 256) (hT : HoldsString T s) (ps : List Nat) (hps : ps.Pairwise (· > ·)) (hstar : ∀ i, i ∈ ps ↔ SStar s i)
    (freeT : Bool) :
    (BlocksSafe (nb (s.length / 2 + 1)) (stored T s.length ps) ∧ ∀ j, NextStar s 0 j → (j + 1) % 256 ≠ 0) ↔
      ∀ w : World, SortsOK w.sorter → enoughFor s.length ≤ w.junk.lim →
        ∃ r T', bwtString w (some T) s.length freeT = .ok (some r, T') ∧ IsBWT s r.bwt.data r.last := by
  constructor
  · rintro ⟨h1, h2⟩ w hS hroom
    obtain ⟨r, e, _, h⟩ := C93_correct w T s h3 h57 hb hT hS hroom ps hps hstar h1 h2 freeT
    exact ⟨r, _, e, h⟩
  · intro hall
    by_contra hc
    obtain ⟨w, h1, h2, h4⟩ := C93_fault T s h3 h57 hb hT ps hps hstar hc
    obtain ⟨r, T', e, _⟩ := hall w h1 (Nat.le_of_eq h2.symm)
    rcases h4 freeT with h4 | h4
    · rw [h4] at e; cases e
    · rw [h4] at e; cases e

/-- The stored strings depend on the text and its terminator only. -/
theorem stored_congr {T T' : Mem Nat} : ∀ {ps : List Nat} {q : Nat}, (∀ i, i ≤ q → T.data i = T'.data i) → ps.Pairwise (· > ·) →
    (∀ x ∈ ps, x < q) → stored T q ps = stored T' q ps := by
  intro ps
  induction ps with
  | nil => intros; rfl
  | cons p ps ih =>
    intro q h1 h2 h3
    rw [List.pairwise_cons] at h2
    have hp := h3 p (by simp)
    show _ :: stored T p ps = _ :: stored T' p ps
    rw [ih (fun i hi => h1 i (by omega)) h2.2 (fun x hx => h2.1 x hx)]
    congr 1
    apply List.map_congr_left
    intro k hk
    rw [List.mem_range] at hk
    exact h1 _ (by omega)

/-- **C93** for files, the condition is exact too: on a host that reads the input completely and stores everything written,
`bwt_file` produces the output file in every environment if and only if the contents meet the condition. -/
theorem C93_exact_file (h : Host) (inp out : String) (s : FState) {content : List Nat} (h3 : 3 ≤ content.length)
    (h57 : content.length < 2 ^ 57) (hb : ∀ c ∈ content, c < 256) (hf : s.files inp = some content) (hr : h.mayRead inp = true)
    (ht : h.tell content = content.length) (hma : h.mallocOk (content.length + 1) = true) (hk : content.length ≤ h.readMax)
    (hw : h.mayWrite out = true) (ha : TakesAll h) (ps : List Nat) (hps : ps.Pairwise (· > ·)) (hstar : ∀ i, i ∈ ps ↔ SStar content i) :
    (BlocksSafe (nb (content.length / 2 + 1)) (stored (cString content) content.length ps) ∧ ∀ j, NextStar content 0 j → (j + 1) % 256 ≠ 0) ↔
      ∀ w : World, SortsOK w.sorter → enoughFor content.length ≤ w.junk.lim →
        ∃ bytes s', bwtFile w h inp out s = (.ok (), s') ∧ FileFormat content bytes ∧ s'.files out = some bytes ∧
          ∀ f, f ≠ out → s'.files f = s.files f := by
  obtain ⟨T, hT, h0, key⟩ := bwtFile_via h inp out s hf hr ht hma hk (by omega) (by omega)
  have hst : stored (cString content) content.length ps = stored T content.length ps := by
    refine stored_congr ?_ hps (fun x hx => ((hstar x).1 hx).2.1)
    intro i hi
    by_cases he : i < content.length
    · rw [hT.val i he, (cString_holds content).val i he]
    · obtain rfl : i = content.length := by omega
      rw [h0]
      simp [cString]
  rw [hst]
  constructor
  · rintro ⟨c1, c2⟩ w hS hroom
    obtain ⟨r, e, hsz, hbwt⟩ := C93_correct w T content h3 h57 hb hT hS hroom ps hps hstar c1 c2 true
    have hlast := hbwt.last_lt
    obtain ⟨l, l1, l2⟩ := writeResult_run h out (n := content.length) (r := r) (by omega) hsz (by omega)
      { s with blocks := s.blocks + 2 } (by simp only; omega) hw
    rw [(key w).2 r _ e]
    refine ⟨l.flatten, _, l2, ⟨_, _, hbwt, l1⟩, ?_, ?_⟩
    · show (FState.store _ out _).files out = _
      rw [FState.store_at, appended_all ha]; rfl
    · intro f hf; simp [FState.store, hf]
  · intro hall
    by_contra hc
    obtain ⟨w, h1, h2, h4⟩ := C93_fault T content h3 h57 hb hT ps hps hstar hc
    obtain ⟨bytes, s', e, _⟩ := hall w h1 (Nat.le_of_eq h2.symm)
    rcases h4 true with h4 | h4
    · rw [(key w).1 _ h4] at e; cases e
    · rw [(key w).1 _ h4] at e; cases e

/-! ### Examples -/

/-- The first string opens a block. -/
theorem plan_one (NB : Nat) (u : List Nat) : (plan NB [u]).left = fun h => if h = hashL 67777 u then 512 else 0 := by
  unfold plan
  simp only [List.foldl_cons, List.foldl_nil]
  unfold Plan.add
  rw [if_neg (by show ¬ u ∈ []; simp), if_pos (by show 0 ≤ _; omega)]
  rfl

theorem nb_small {m : Nat} (h : m < 256) : nb m = 1 := by
  unfold HashTable.nb
  rw [Nat.log_of_lt h]

/-- "IH", 254 times "V", "Hh": the first of the two stored strings has 256 bytes, so that the condition of C01 does not hold. -/
abbrev viiText : List Nat := 73 :: 72 :: (List.replicate 254 86 ++ [72, 104])

theorem viiText_star (i : Nat) : i ∈ [256, 1] ↔ SStar viiText i := by
  rw [sstar_bacad (by omega) (by omega) (by omega) (by omega)]
  simp only [List.mem_cons, List.not_mem_nil, or_false]
  omega

theorem viiText_length : viiText.length = 258 := by decide +kernel

theorem viiText_stored : stored (cString viiText) 258 [256, 1] = [[72, 104, 0], 72 :: (List.replicate 254 86 ++ [72])] := by
  decide +kernel

theorem viiText_not : ¬ NoLength256 viiText := by
  intro h
  refine h 1 256 (Or.inr ((viiText_star 1).1 (by simp))) ⟨by omega, by rw [viiText_length]; omega, Or.inr ((viiText_star 256).1 (by simp)), ?_⟩ (by omega)
  intro k k1 k2 hk
  have := (viiText_star k).2 hk
  simp only [List.mem_cons, List.not_mem_nil, or_false] at this
  omega

/-- The string of 256 bytes gets into the block of "Hh", with which it shares its bucket. -/
theorem viiText_safe : BlocksSafe (nb (258 / 2 + 1)) (stored (cString viiText) 258 [256, 1]) := by
  rw [viiText_stored, nb_small (show 258 / 2 + 1 < 256 by omega)]
  intro us w vs h1 h2 h3
  match us, h1 with
  | [], h1 =>
    injection h1 with h1 _
    subst h1
    exact absurd h2 (by decide)
  | [u], h1 =>
    injection h1 with h0 h1
    injection h1 with h1 _
    subst h0 h1
    have e1 : hashL 67777 (72 :: (List.replicate 254 86 ++ [72])) = 67206 := by decide +kernel
    have e2 : hashL 67777 [72, 104, 0] = 67206 := by decide +kernel
    have n2 : nb 256 = 2 := by
      refine HashTable.nb_unique (by omega) (by decide) (by decide)
    have l1 : (72 :: (List.replicate 254 86 ++ [72])).length = 256 := by decide +kernel
    unfold Plan.Opens recordBytes
    rw [plan_one, l1, n2, e1, e2]
    simp only [if_true]
    omega
  | u :: u' :: us, h1 =>
    injection h1 with _ h1
    injection h1 with _ h1
    cases us <;> cases h1

theorem viiText_head : ∀ j, NextStar viiText 0 j → (j + 1) % 256 ≠ 0 := by
  rintro j ⟨h1, h2, h3, h4⟩
  have : ¬ 1 < j := fun h => h4 1 (by omega) h ((viiText_star 1).1 (by simp))
  omega

/-- It is transformed in every memory. -/
example (w : World) (hS : SortsOK w.sorter) (hroom : enoughFor 258 ≤ w.junk.lim) (freeT : Bool) :
    ∃ r, bwtString w (some (cString viiText)) 258 freeT = .ok (some r, release freeT (cString viiText)) ∧ r.bwt.size = 259 ∧
      IsBWT viiText r.bwt.data r.last := by
  have hl := viiText_length
  have := C93_correct w (cString viiText) viiText (by omega) (by omega) (by decide +kernel) (cString_holds _) hS (by rw [hl]; exact hroom) [256, 1]
    (by decide) viiText_star (by rw [hl]; exact viiText_safe) viiText_head freeT
  rw [hl] at this
  exact this

/-- "ba", 254 times "c", "ac": the first of the two stored strings has 256 bytes too, but its bucket is empty. -/
abbrev bacText : List Nat := 98 :: 97 :: (List.replicate 254 99 ++ [97, 99])

theorem bacText_star (i : Nat) : i ∈ [256, 1] ↔ SStar bacText i := by
  rw [sstar_bacad (by omega) (by omega) (by omega) (by omega)]
  simp only [List.mem_cons, List.not_mem_nil, or_false]
  omega

/-- There is a memory in which the call on it accesses memory it does not own (the theorems of PropsDirtyTab do not apply: the
string is not the last one and shorter than 512 bytes). -/
example : ∃ w : World, SortsOK w.sorter ∧ w.junk.lim = enoughFor 258 ∧ ∀ freeT,
      bwtString w (some (cString bacText)) 258 freeT = .error (.ub .outOfBounds) ∨
      bwtString w (some (cString bacText)) 258 freeT = .error (.ub .nullDeref) := by
  have hl : bacText.length = 258 := by decide +kernel
  have hst : stored (cString bacText) 258 [256, 1] = [[97, 99, 0]] ++ (97 :: (List.replicate 254 99 ++ [97])) :: [] := by decide +kernel
  have := C93_fault (cString bacText) bacText (by omega) (by omega) (by decide +kernel) (cString_holds _) [256, 1] (by decide) bacText_star (by
      rintro ⟨h, _⟩
      rw [hl] at h
      refine h _ _ _ hst (by decide +kernel) (by decide +kernel) ?_
      have e1 : hashL 67777 (97 :: (List.replicate 254 99 ++ [97])) ≠ hashL 67777 [97, 99, 0] := by decide +kernel
      unfold Plan.Opens
      rw [plan_one]
      simp only [if_neg e1]
      omega)
  rw [hl] at this
  exact this

end Flbwt
