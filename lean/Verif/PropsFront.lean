import Verif.Bridge

/-!
# Properties C20 – C23, C29, C33, C34 (the stages of `bwt_string`)
-/

namespace Flbwt

open HashTable (ok_bind)
open SaStore LawfulSaStore

/-- The assumptions of the theorems about a call on the string `s`: `s` is a string of bytes of length at least 3 (and
below `2^57`) that the block `T` holds, followed by a byte that is not larger than any byte of `s` (0, for instance); `std::sort` meets its contract; the bytes handed out by
`realloc` are 0 or no stored string has a length that is a multiple of 256 (see C18); and the allocator can provide a
buffer of `27·n + 34702400` bytes for the hash table (that this is always enough is property C44). -/
structure GoodCall (junk : Fresh) (sorter : Sorter) (T : Mem Nat) (s : List Nat) : Prop where
  len3 : 3 ≤ s.length
  len57 : s.length < 2 ^ 57
  byte : ∀ c ∈ s, c < 256
  mem : HoldsString T s
  sort : SortsOK sorter
  safe : LengthsSafe junk s
  room : enoughFor s.length ≤ junk.lim

theorem GoodCall.inp {junk : Fresh} {sorter : Sorter} {T : Mem Nat} {s : List Nat} (g : GoodCall junk sorter T s) :
    Input T s.length := g.mem.input g.len3 g.len57 g.byte (g.mem.term_lt g.len3 g.byte)
theorem GoodCall.min {junk : Fresh} {sorter : Sorter} {T : Mem Nat} {s : List Nat} (g : GoodCall junk sorter T s) :
    ∀ i, i < s.length → T.data s.length ≤ T.data i :=
  fun i hi => by rw [g.mem.val i hi]; exact g.mem.term _ (List.getElem_mem hi)
theorem GoodCall.len {junk : Fresh} {sorter : Sorter} {T : Mem Nat} {s : List Nat} (g : GoodCall junk sorter T s) :
    LenOK junk T.data s.length := g.mem.lenOK (by have := g.len3; omega) g.room g.safe

/-- Strings shorter than 255 are safe whatever memory contains. -/
theorem lengthsSafe_short (junk : Fresh) {s : List Nat} (h : s.length < 255) : LengthsSafe junk s := by
  right
  rintro i j _ ⟨h1, h2, _, _⟩
  omega

section
variable {junk : Fresh} {sorter : Sorter} {T : Mem Nat} {s : List Nat}

/-- **C20** `extract_LMS_strings` counts the S* positions, the different S* strings, and finds the end of the head
string. -/
theorem C20_extract_counts (g : GoodCall junk sorter T s) : ∃ ct, extractLMS junk T s.length = .ok ct ∧ ct.n = s.length ∧
    ct.numSubs = countBelow s.length (fun i => decide (SStar s i)) ∧
    (∃ L : List (List Nat), L.Nodup ∧ (∀ x, x ∈ L ↔ ∃ i j, StarString s (T.data s.length) i j x) ∧ ct.numUnique = L.length) ∧
    NextStar s 0 ct.headEnd := by
  obtain ⟨ct, e, ht, E⟩ := Tot_iff.1 (extractLMS_spec g.inp g.len.lms)
  have h := g.mem
  have h3 := g.len3
  refine ⟨ct, e, E.nn, ?_, ?_, ?_⟩
  · rw [E.num]
    exact cnt_eq_count _ _ _ (fun i _ => by rw [decide_eq_true_iff, h.sstar])
  · obtain ⟨own, ents, E', t, hset, hu, _⟩ := E.hok.tab
    refine ⟨_, t.nodup_all, fun x => ?_, by rw [List.length_map]; exact hu⟩
    rw [← t.has_iff, hset]
    constructor
    · rintro ⟨p, _, hp, rfl⟩
      have hs := (h.sstar p).2 hp
      exact ⟨p, _, hs, (h.next hs).2 rfl, (h.wstr hs ((h.next hs).2 rfl)).symm⟩
    · rintro ⟨i, j, hi, hj, rfl⟩
      exact ⟨i, trivial, (h.sstar i).1 hi, (h.wstr hi hj).symm⟩
  · exact (h.first (by omega)).2 E.headEnd.symm

/-- **C21** the histograms: entry `c + 1` of `M`, `NL`, `C` is the number of occurrences, of L type occurrences and of S*
occurrences of byte `c`; entry 0 stands for the terminator. -/
theorem C21_extract_histograms (g : GoodCall junk sorter T s) : ∃ ct, extractLMS junk T s.length = .ok ct ∧
    ct.M.size = 258 ∧ ct.NL.size = 258 ∧ ct.C.size = 258 ∧ ct.M.data 0 = 1 ∧ ct.NL.data 0 = 0 ∧ ct.C.data 0 = 1 ∧
    ∀ c, c ≤ 256 → ct.M.data (c + 1) = s.count c ∧
      ct.NL.data (c + 1) = countBelow s.length (fun i => s[i]? = some c && !decide (SType s i)) ∧
      ct.C.data (c + 1) = countBelow s.length (fun i => s[i]? = some c && decide (SStar s i)) := by
  obtain ⟨ct, e, ht, E⟩ := Tot_iff.1 (extractLMS_spec g.inp g.len.lms)
  have h := g.mem
  refine ⟨ct, e, E.M.sz, E.NL.sz, E.C.sz, E.M.zero, E.NL.zero, E.C.zero, fun c hc => ⟨?_, ?_, ?_⟩⟩
  · rw [E.M.val c (by omega), cnt_eq_count _ _ (fun i => T.data i == c) (fun i _ => by simp)]
    conv_rhs => rw [h.eq_map]
    unfold countBelow
    rw [List.count_eq_countP, List.countP_map, List.countP_eq_length_filter]
    congr 1
  · rw [E.NL.val c (by omega)]
    refine cnt_eq_count _ _ _ (fun i hi => ?_)
    rw [Bool.and_eq_true, decide_eq_true_iff, List.getElem?_eq_getElem hi, ← h.val i hi, Option.some_inj,
      Bool.not_eq_true', decide_eq_false_iff_not, h.stype hi, Bool.not_eq_true]
    exact And.comm
  · rw [E.C.val c (by omega)]
    refine cnt_eq_count _ _ _ (fun i hi => ?_)
    rw [Bool.and_eq_true, decide_eq_true_iff, decide_eq_true_iff, List.getElem?_eq_getElem hi, ← h.val i hi, Option.some_inj,
      h.sstar]
    exact And.comm

/-- The state after `sort_LMS_strings`, as a user of the functions sees it: the calls succeed and the names that
`find_name` returns for the S* strings are `name`. -/
def NamedBy (ht : HashTable) (T : Mem Nat) (s : List Nat) (name : Nat → Nat) : Prop :=
  ∀ i j, SStar s i → NextStar s i j → HashTable.findName ht T (j - i + 1) i = .ok (name i)

theorem Ready.namedBy {ct : Container} {ht : HashTable} {p : Mem Nat} {str : Nat → List Nat} {R : Nat → Nat} {T1 : PackedArray}
    (h : HoldsPrefix T s) (H : Ready T s.length ct ht p str R T1) : NamedBy ht T s R := by
  intro i j hi hj
  obtain ⟨h1, h2, h3⟩ := H.name i ((h.sstar i).1 hi)
  have hnx := (h.next hi).1 hj
  have hle := hj.2.1
  have hlt := hj.1
  have hsz := h.size
  have hl : (str (R i)).length = j - i + 1 := by rw [h3, wstr_eq_substr, HashTable.substr_length, hnx]
  have := H.sorted.find T i (R i) (by omega) h1 h2 (by rw [hl, h3, wstr_eq_substr, hnx])
  rwa [hl] at this

/-- **C22** names are `1 … u` without gaps, equal exactly for equal S* strings, and respect the order of the suffixes. -/
theorem C22_names_respect_order (g : GoodCall junk sorter T s) (pj : Nat → Nat) : ∃ ct0 p ct ht name,
    extractLMS junk T s.length = .ok ct0 ∧ sortLMS sorter pj junk T ct0 = .ok (p, ct) ∧ ct.hashtable = some ht ∧
    NamedBy ht T s name ∧
    (∀ i, SStar s i → 1 ≤ name i ∧ name i ≤ ct.numUnique) ∧
    (∀ m, 1 ≤ m → m ≤ ct.numUnique → ∃ i, SStar s i ∧ name i = m) ∧
    (∀ i j x i' j' x', StarString s (T.data s.length) i j x → StarString s (T.data s.length) i' j' x' → (name i = name i' ↔ x = x')) ∧
    (∀ i i', SStar s i → SStar s i' → name i < name i' → s.drop i < s.drop i') := by
  obtain ⟨ct0, ht0, p, ct, ht, str, R, T1, e1, E, e2, e3, H, hu⟩ := stages_spec g.inp g.len g.sort pj (fun _ => 0) 0
  have h := g.mem
  have hname : ∀ i j x, StarString s (T.data s.length) i j x → isLMS T.data s.length i ∧ str (R i) = x := by
    rintro i j x ⟨hi, hj, rfl⟩
    exact ⟨(h.sstar i).1 hi, by rw [h.wstr hi hj]; exact (H.name i ((h.sstar i).1 hi)).2.2⟩
  have hinj : ∀ a b, 1 ≤ a → a ≤ ct.numUnique → 1 ≤ b → b ≤ ct.numUnique → str a = str b → a = b := by
    intro a b a1 a2 b1 b2 hab
    rcases Nat.lt_trichotomy a b with h1 | h1 | h1
    · have := H.sorted.lt a b a1 h1 b2; rw [hab, lmsLt_irrefl] at this; cases this
    · exact h1
    · have := H.sorted.lt b a b1 h1 a2; rw [hab, lmsLt_irrefl] at this; cases this
  refine ⟨ct0, p, ct, ht, R, e1, e2, H.sorted.htab, H.namedBy h.toHoldsPrefix, ?_, ?_, ?_, ?_⟩
  · intro i hi
    have := H.name i ((h.sstar i).1 hi)
    exact ⟨this.1, this.2.1⟩
  · intro m m1 m2
    obtain ⟨q, hq, hqs⟩ := (H.sorted.mem (str m)).2 ⟨m, m1, m2, rfl⟩
    obtain ⟨n1, n2, n3⟩ := H.name q hq
    exact ⟨q, (h.sstar q).2 hq, hinj _ _ n1 n2 m1 m2 (by rw [n3, hqs])⟩
  · intro i j x i' j' x' hx hx'
    obtain ⟨l1, s1⟩ := hname i j x hx
    obtain ⟨l2, s2⟩ := hname i' j' x' hx'
    have n1 := H.name i l1
    have n2 := H.name i' l2
    rw [← s1, ← s2]
    exact ⟨fun h => by rw [h], fun h => hinj _ _ n1.1 n1.2.1 n2.1 n2.2.1 h⟩
  · intro i i' hi hi' hlt
    have l1 := (h.sstar i).1 hi
    have l2 := (h.sstar i').1 hi'
    rw [h.drop, h.drop]
    have := (H.naming g.min).lt (tix T.data s.length i) (tix T.data s.length i') (tix_lt l1) (tix_lt l2)
    simp only [lpos_tix l1, lpos_tix l2] at this
    exact this hlt

/-- **C23** the shortened string: number of the head string, names of the S* strings in text order (the entry of an S*
position is found by counting the S* positions before it), 0. No lookup fails. -/
theorem C23_shortened_string (g : GoodCall junk sorter T s) (pj : Nat → Nat) (tj : Nat → BitVec 64) (sj sj' : BitVec 64) :
    ∃ ct0 p ct ht name T1, extractLMS junk T s.length = .ok ct0 ∧ sortLMS sorter pj junk T ct0 = .ok (p, ct) ∧
    ct.hashtable = some ht ∧ NamedBy ht T s name ∧ createShortened tj sj T s.length ct = .ok T1 ∧
    T1.length = ct.numSubs + 2 ∧ ct.numSubs = countBelow s.length (fun i => decide (SStar s i)) ∧
    (∃ v, T1.getValue sj' 0 = .ok v ∧ v.toNat = ct.numUnique + 1) ∧
    (∀ i, SStar s i → ∃ v, T1.getValue sj' (countBelow i (fun k => decide (SStar s k)) + 1) = .ok v ∧ v.toNat = name i) ∧
    (∃ v, T1.getValue sj' (ct.numSubs + 1) = .ok v ∧ v.toNat = 0) := by
  obtain ⟨ct0, ht0, p, ct, ht, str, R, T1, e1, E, e2, e3, H, hu⟩ := stages_spec g.inp g.len g.sort pj tj sj
  have h := g.mem
  have hn := H.num
  have hlen := H.short.len
  refine ⟨ct0, p, ct, ht, R, T1, e1, e2, H.sorted.htab, H.namedBy h.toHoldsPrefix, e3, by omega, ?_, ?_, ?_, ?_⟩
  · rw [hn]
    exact cnt_eq_count _ _ _ (fun i _ => by rw [decide_eq_true_iff, h.sstar])
  · exact ⟨_, PackedArray.getValue_eq H.short.wf sj' (by omega), H.cell0⟩
  · intro i hi
    have hl := (h.sstar i).1 hi
    have hc : countBelow i (fun k => decide (SStar s k)) = tix T.data s.length i := by
      rw [← cnt_eq_count i (fun q => isLMS T.data s.length q) _ (fun k _ => by rw [decide_eq_true_iff, h.sstar])]
      have hin : i ≤ s.length := by have := hl.2.1; omega
      unfold tix
      clear hl hi
      generalize s.length = n at *
      obtain ⟨d, rfl⟩ : ∃ d, n = i + d := ⟨n - i, by omega⟩
      generalize isLMS T.data (i + d) = P
      clear * -
      induction d with
      | zero => exact cnt_congr (fun q hq => ⟨fun h => ⟨h, hq⟩, fun h => h.1⟩)
      | succ d ih =>
        classical
        rw [ih, ← Nat.add_assoc, cnt_succ, if_neg (by omega), Nat.add_zero]
    rw [hc]
    have ht := tix_lt hl
    refine ⟨_, PackedArray.getValue_eq H.short.wf sj' (by omega), ?_⟩
    rw [(H.cellS ht).1, lpos_tix hl]
  · refine ⟨_, PackedArray.getValue_eq H.short.wf sj' (by omega), ?_⟩
    rw [hn, H.short.fin]; rfl

/-! ## Width selection -/

/-- the branch for the integers of `W` bits -/
def branchOf (W : Nat) (w : World) (p : Mem Nat) (T1 : PackedArray) (ht : HashTable) (ct : Container) : M BwtResult :=
  if W = 32 then branch S32 w p T1 ht ct else if W = 40 then branch S40 w p T1 ht ct
  else if W = 48 then branch S48 w p T1 ht ct else if W = 56 then branch S56 w p T1 ht ct
  else branch S64 w p T1 ht ct

/-- **C29** the width that is selected: the branch of that width is taken, the number of entries and the alphabet fit in
its non-negative range, so does every pointer (offset of the last byte of a record's string, relative to `bwp_base`), and
the width of the packed text is smaller than the selector. -/
theorem C29_width_selection (w : World) (g : GoodCall w.junk w.sorter T s) : ∃ ct0 p ct ht T1 W,
    extractLMS w.junk T s.length = .ok ct0 ∧ sortLMS w.sorter w.pj w.junk T ct0 = .ok (p, ct) ∧ ct.hashtable = some ht ∧
    createShortened w.tj w.sj T s.length ct = .ok T1 ∧ (W = 32 ∨ W = 40 ∨ W = 48 ∨ W = 56 ∨ W = 64) ∧
    finish w p T1 ct = some <$> branchOf W w p T1 ht ct ∧ T1.bits < W ∧ ct.numSubs + 2 < 2 ^ (W - 1) ∧
    ct.numUnique + 2 ≤ 2 ^ (W - 1) ∧
    ∀ i, i ≤ ct.numUnique + 1 → ∃ l fc, HashTable.getLength ht.buf (p.data i) = .ok l ∧
      HashTable.getFirstCharacterPointer ht.buf (p.data i) = .ok fc ∧ 0 ≤ (fc : Int) + l - 1 - ct.bwpBase ∧
      (fc : Int) + l - 1 - ct.bwpBase < 2 ^ (W - 1) := by
  obtain ⟨ct0, ht0, p, ct, ht, str, R, T1, e1, E, e2, e3, H, hu⟩ := stages_spec g.inp g.len g.sort w.pj w.tj w.sj
  obtain ⟨mn, hbase, hmn, _, hmax⟩ := H.sorted.base
  have hsm := H.sorted.small
  have hlt := H.num_lt
  have hul := H.ule
  have hfsz := H.sorted.fsz
  have hp : (2 : Nat) ^ 57 < 2 ^ 62 := by norm_num
  have hp' : (2 : Nat) ^ 62 + 4 < 2 ^ 63 := by norm_num
  have hp'' : (2 : Nat) ^ 63 < 2 ^ 64 := by norm_num
  -- every record
  have hrec : ∀ i, i ≤ ct.numUnique + 1 → ∃ l fc, HashTable.getLength ht.buf (p.data i) = .ok l ∧
      HashTable.getFirstCharacterPointer ht.buf (p.data i) = .ok fc ∧ 0 ≤ (fc : Int) + l - 1 - ct.bwpBase ∧
      (fc : Int) + l - 1 - ct.bwpBase ≤ ct.saMax := by
    intro i hi
    have hm := hmn i hi
    have gen : ∀ (x : List Nat), HashTable.RecAt ht.buf (p.data i) x → 1 ≤ x.length → x.length < 2 ^ 64 →
        p.data i + HashTable.bodyLen x ≤ p.data 0 → ∃ l fc, HashTable.getLength ht.buf (p.data i) = .ok l ∧
        HashTable.getFirstCharacterPointer ht.buf (p.data i) = .ok fc ∧ 0 ≤ (fc : Int) + l - 1 - ct.bwpBase ∧
        (fc : Int) + l - 1 - ct.bwpBase ≤ ct.saMax := by
      intro x hx x1 x2 x3
      refine ⟨_, p.data i + 1 + HashTable.nb x.length + 1, hx.getLength x1 x2 (by omega), ?_, ?_, ?_⟩
      · unfold HashTable.getFirstCharacterPointer
        rw [Mem.rd_ok _ (by unfold HashTable.bodyLen at x3; omega), ok_bind, hx.1.1]
      · rw [hbase]; omega
      · unfold HashTable.bodyLen at x3
        rw [hbase, hmax]; omega
    by_cases h0 : i = 0
    · subst h0
      have hn1 : HashTable.nb 1 = 1 := HashTable.nb_small (by omega) (by omega)
      refine ⟨1, p.data 0 + 1 + 1 + 1, HashTable.getLength_eq H.sorted.fin (by omega) (by omega) (by omega), ?_, ?_, ?_⟩
      · unfold HashTable.getFirstCharacterPointer
        rw [Mem.rd_ok _ (by omega), ok_bind, H.sorted.fin.1, hn1]
      · rw [hbase]; omega
      · rw [hbase, hmax]; omega
    · by_cases h1 : i = ct.numUnique + 1
      · subst h1
        have hend := H.sorted.hend
        refine gen _ H.sorted.head ?_ ?_ (by omega)
        · rw [HashTable.substr_length]; omega
        · rw [HashTable.substr_length, H.headEnd]
          have := lpos_le (T := T.data) (n := s.length) (a := 0)
          have := g.len57
          omega
      · obtain ⟨r1, r2, r3, r4⟩ := H.sorted.rec' i (by omega) (by omega)
        have hend := H.sorted.hend
        exact gen _ r1 (by omega) r4 (by omega)
  obtain ⟨mv, hmv⟩ : ∃ x, x = if ct.saMax < lmsN T.data s.length + 2 then lmsN T.data s.length + 2 else ct.saMax := ⟨_, rfl⟩
  have h1 : ct.saMax ≤ mv ∧ lmsN T.data s.length + 2 ≤ mv ∧ mv < 2 ^ 63 := by
    rw [hmv]; split <;> omega
  obtain ⟨bits, eb, b1, b2, b3, b4⟩ := Tot_iff.1 (positionOfMsb_spec mv (by omega) (by omega))
  have hb63 : bits ≤ 63 := by
    by_contra hc
    have : (2 : Nat) ^ 63 ≤ 2 ^ (bits - 1) := Nat.pow_le_pow_right (by norm_num) (by omega)
    omega
  have hT1 : T1.bits ≤ bits := by
    by_contra hc
    have : (2 : Nat) ^ bits ≤ 2 ^ (T1.bits - 1) := Nat.pow_le_pow_right (by norm_num) (by omega)
    have := H.short.bits.2
    omega
  have key : ∀ W, bits < W → T1.bits < W ∧ ct.numSubs + 2 < 2 ^ (W - 1) ∧ ct.numUnique + 2 ≤ 2 ^ (W - 1) ∧
      ∀ i, i ≤ ct.numUnique + 1 → ∃ l fc, HashTable.getLength ht.buf (p.data i) = .ok l ∧
      HashTable.getFirstCharacterPointer ht.buf (p.data i) = .ok fc ∧ 0 ≤ (fc : Int) + l - 1 - ct.bwpBase ∧
      (fc : Int) + l - 1 - ct.bwpBase < 2 ^ (W - 1) := by
    intro W hW
    have hpw : (2 : Nat) ^ bits ≤ 2 ^ (W - 1) := Nat.pow_le_pow_right (by norm_num) (by omega)
    have hn := H.num
    refine ⟨by omega, by omega, by omega, fun i hi => ?_⟩
    obtain ⟨l, fc, a1, a2, a3, a4⟩ := hrec i hi
    refine ⟨l, fc, a1, a2, a3, ?_⟩
    have : ((2 ^ (W - 1) : Nat) : Int) = 2 ^ (W - 1) := by push_cast; rfl
    rw [← this]; omega
  have hfin : finish w p T1 ct = (if bits < 32 then some <$> branch S32 w p T1 ht ct
    else if bits < 40 then some <$> branch S40 w p T1 ht ct
    else if bits < 48 then some <$> branch S48 w p T1 ht ct
    else if bits < 56 then some <$> branch S56 w p T1 ht ct
    else if bits < 64 then some <$> branch S64 w p T1 ht ct
    else .ok none) := by
    unfold finish
    rw [H.sorted.htab]
    simp only
    rw [H.num, ← hmv, eb, ok_bind]
  by_cases c1 : bits < 32
  · exact ⟨ct0, p, ct, ht, T1, 32, e1, e2, H.sorted.htab, e3, by simp, by rw [hfin, if_pos c1]; rfl, key 32 c1⟩
  by_cases c2 : bits < 40
  · exact ⟨ct0, p, ct, ht, T1, 40, e1, e2, H.sorted.htab, e3, by simp, by rw [hfin, if_neg c1, if_pos c2]; rfl, key 40 c2⟩
  by_cases c3 : bits < 48
  · exact ⟨ct0, p, ct, ht, T1, 48, e1, e2, H.sorted.htab, e3, by simp, by rw [hfin, if_neg c1, if_neg c2, if_pos c3]; rfl, key 48 c3⟩
  by_cases c4 : bits < 56
  · exact ⟨ct0, p, ct, ht, T1, 56, e1, e2, H.sorted.htab, e3, by simp,
      by rw [hfin, if_neg c1, if_neg c2, if_neg c3, if_pos c4]; rfl, key 56 c4⟩
  · exact ⟨ct0, p, ct, ht, T1, 64, e1, e2, H.sorted.htab, e3, by simp,
      by rw [hfin, if_neg c1, if_neg c2, if_neg c3, if_neg c4, if_pos (by omega)]; rfl, key 64 (by omega)⟩

end

/-! ## Inducing -/

theorem loopDown_congr {σ : Type} (f g : Nat → σ → M σ) : ∀ (hi : Nat) (s : σ), (∀ i s, i < hi → f i s = g i s) →
    loopDown hi s f = loopDown hi s g
  | 0, _, _ => rfl
  | hi + 1, s, h => by
    simp only [loopDown]
    rw [h hi s (by omega)]
    congr 1
    funext s'
    exact loopDown_congr f g hi s' (fun i t hi' => h i t (by omega))

/-- **C33** `induce_bwt_XXbit` depends only on the pointer sequence: for any container and any two representations (the
five widths are instances) that hold the same pointers, the outcome – result, fault or exception – is the same. -/
theorem C33_induce_variants_agree {S S' : Type} [SaStore S] [SaStore S'] (qj : Nat → Nat → Nat → Nat → BitVec 64)
    (bj : Nat → Nat) (sj : BitVec 64) (fuel : Nat) (buf : Mem Nat) (ct : Container) (sa : S) (sa' : S')
    (h1 : ct.numSubs < size sa) (h2 : ct.numSubs < size sa') (h : ∀ i, i ≤ ct.numSubs → get sa i = get sa' i) :
    induceBwt qj bj sj fuel buf sa ct = induceBwt qj bj sj fuel buf sa' ct := by
  have hseed : ∀ e st, seed e sa ct.numSubs st = seed e sa' ct.numSubs st := by
    intro e st
    unfold seed
    refine loopDown_congr _ _ _ _ (fun i t hi => ?_)
    rw [if_pos (by omega), if_pos (by omega), h i (by omega)]
  unfold induceBwt
  simp only [hseed]

/-- the five variants on one pointer sequence -/
example (qj : Nat → Nat → Nat → Nat → BitVec 64) (bj : Nat → Nat) (sj : BitVec 64) (buf : Mem Nat) (ct : Container)
    (hn : ct.numSubs = 2) :
    induceBwt qj bj sj 9 buf (⟨⟨3, fun i => BitVec.ofNat 32 (i + 40)⟩⟩ : S32) ct =
    induceBwt qj bj sj 9 buf (⟨⟨3, fun i => BitVec.ofNat 64 (i + 40)⟩⟩ : S64) ct :=
  C33_induce_variants_agree qj bj sj 9 buf ct _ _ (by rw [hn]; decide) (by rw [hn]; decide)
    (by rw [hn]; intro i hi; match i, hi with | 0, _ => rfl | 1, _ => rfl | 2, _ => rfl)

/-- **C34** in the call on `s`, for every width whose range is large enough (C29: the selected one is), suffix sorting,
conversion to pointers and `induce_bwt_XXbit` run without a fault: every access to `BWT`, the bucket arrays, the queues and the
buffer is checked in the model, dequeuing an empty queue and returning with `last` unassigned are faults. The array has `n+1`
entries. -/
theorem C34_induce_memory_safe {T : Mem Nat} {s : List Nat} (w : World) (g : GoodCall w.junk w.sorter T s) (S : Type)
    [LawfulSaStore S] : ∃ ct0 p ct ht T1,
    extractLMS w.junk T s.length = .ok ct0 ∧ sortLMS w.sorter w.pj w.junk T ct0 = .ok (p, ct) ∧ ct.hashtable = some ht ∧
    createShortened w.tj w.sj T s.length ct = .ok T1 ∧
    (T1.bits ≠ width S → ct.numSubs + 2 < 2 ^ (width S - 1) → ct.saMax < 2 ^ (width S - 1) →
      ∃ r, branch S w p T1 ht ct = .ok r ∧ r.bwt.size = s.length + 1) := by
  obtain ⟨ct0, ht0, p, ct, ht, str, R, T1, e1, E, e2, e3, H, hu⟩ := stages_spec g.inp g.len g.sort w.pj w.tj w.sj
  refine ⟨ct0, p, ct, ht, T1, e1, e2, H.sorted.htab, e3, fun h1 h2 h3 => ?_⟩
  obtain ⟨r, e, hr⟩ := Tot_iff.1 (H.branch_spec g.min S w h1 (by rw [← H.num]; exact h2) h3)
  exact ⟨r, e, hr.1⟩

end Flbwt
