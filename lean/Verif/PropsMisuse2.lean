import Verif.PropsHash

/-!
# C61: strings of length 0 and 2 in the hash table

`HashTable::insert_string` (src/hashtable.cpp:28-131) accepts any length. A length field with value 2 is the mark of a
link to the next block (src/hashtable.cpp:58-63), and the loops of `calculate_lenlen` and `set_length`
(src/hashtable.cpp:163-184, 231-244) do not end for 0.
-/

namespace Flbwt
namespace HashTable

theorem calculateLenlen_zero : calculateLenlen 0 = .error (.ub .diverge) := by
  have h1 : topByte 0 = 0 := by decide
  have h2 : shl8 0 = 0 := by decide
  simp [calculateLenlen, whileM, h1, h2, bind, Except.bind]

theorem Chain.len3 {NB : Nat} {buf : Mem Nat} {P : Nat → Prop} {PN : Nat → Nat → Prop} {q e : Nat}
    {L : List (Nat × List Nat)} (h : Chain NB buf P PN q L e) : ∀ x ∈ L, 3 ≤ x.2.length := by
  induction h with
  | nil => simp
  | cons q s L e _ h3 _ _ _ _ _ ih => intro x hx; rcases List.mem_cons.1 hx with rfl | hx; exacts [h3, ih x hx]
  | jump _ _ _ _ _ _ _ _ _ _ _ ih => exact ih

theorem insert_empty {ht : HashTable} {own : Nat → Tag} {ents : Nat → List (Nat × List Nat)} {E : Nat → Nat}
    (t : Tab ht own ents E) (junk : Fresh) (T : Mem Nat) (p : Nat) (hT : p ≤ T.size) :
    insertString junk ht T 0 p = .error (.ub .diverge) := by
  have hhl := hashL_lt t.hts (substr T p 0)
  unfold insertString
  rw [hashFunction_eq _ _ _ _ t.hts (by omega), ok_bind, Mem.rd_ok _ (by rw [t.headsz]; exact hhl), ok_bind]
  generalize hh : hashL ht.htsize (substr T p 0) = h at *
  have scan : Tot (whileM (ht.bufsize + 2) (ht.head.data h, none, ht.collisions) (insertStep ht.nameBytes ht.buf T 0 p))
      (fun res => ∃ q r c, res = .free q r c) := by
    by_cases h0 : ht.head.data h = 0
    · rw [h0]
      simp only [whileM, insertStep, if_neg (show ¬ (0 : Nat) ≠ 0 by omega), ok_bind, Tot_ok]
      exact ⟨_, _, _, rfl⟩
    · have hc := t.chain h hhl h0
      have := scan_spec (T := T) (p := p) (m := 0) (by omega)
        (fun i hi => by rw [t.bufsz]; exact t.ownlt i (by rw [hi]; simp)) t.small64 hc (ht.bufsize + 2)
        none ht.collisions (Or.inl (by rw [t.bufsz]; omega))
      refine this.mono ?_
      rintro res (⟨a, b⟩ | ⟨a, c, _, b⟩)
      · obtain ⟨x, hx, hx'⟩ := List.mem_map.1 a
        have h3 := hc.len3 x hx
        rw [hx', substr_length] at h3
        omega
      · exact ⟨_, _, _, b⟩
  obtain ⟨_, e, q, r, c, rfl⟩ := Tot_iff.1 scan
  rw [e, ok_bind]
  simp only [calculateLenlen_zero]
  rfl

/-- C61 (empty string): after every history of `insert_string` and `find_name` calls, inserting a string of length 0 never
returns. -/
theorem C61_empty_string_diverges (size n : Nat) (h0 : 0 < size) (hn : n < 2 ^ 64) (junk : Fresh)
    (ops : List HOp) (hok : ∀ op ∈ ops, op.okFor junk) (hmem : junk.Room (HOp.need ops)) :
    ∃ ht outs, (do let ht ← HashTable.new size n; HOp.execs junk ht ops) = .ok (ht, outs) ∧
      insertString junk ht (ofList []) 0 0 = .error (.ub .diverge) := by
  obtain ⟨ht, e, g, hb, _⟩ := Tot_iff.1 (new_good size n h0 hn)
  obtain ⟨⟨ht', outs⟩, e', _, seen, own, ents, E, t, _⟩ := Tot_iff.1 (execs_good' junk ops ht [] g (by rw [hb]; omega) hok)
  exact ⟨ht', outs, by rw [e, ok_bind, e'], insert_empty t junk _ 0 (by omega)⟩

/-- C61 (two bytes): on a new table a string of two bytes is accepted as new; after that every further call, for
any string with the same hash value, in particular for the same string again, reads outside the buffer, both in
`insert_string` (which should have answered 0 for the same string) and in `find_name`. -/
theorem C61_two_byte_string (size n : Nat) (h0 : 0 < size) (hn : n < 2 ^ 64) (junk : Fresh) (hmem : junk.Room 600)
    (a b : Nat) (ha : a < 256) (hb : b < 256) :
    ∃ ht ht', HashTable.new size n = .ok ht ∧ insertString junk ht (ofList [a, b]) 2 0 = .ok (ht', 1) ∧
      ∀ s : List Nat, hashL size s = hashL size [a, b] →
        insertString junk ht' (ofList s) s.length 0 = .error (.ub .outOfBounds) ∧
        findName ht' (ofList s) s.length 0 = .error (.ub .outOfBounds) := by
  obtain ⟨ht, e, t, g1, g2, g3, g4, g5, g6, g7⟩ := Tot_iff.1 (new_tab size n h0 hn)
  have hs : substr (ofList [a, b]) 0 2 = [a, b] := substr_ofList [a, b]
  have hnb : nb 2 = 1 := nb_small (by omega) (by omega)
  have hbl : bodyLen (substr (ofList [a, b]) 0 2) = 5 := by rw [hs]; simp [bodyLen, hnb]
  have hh := hashL_lt t.hts [a, b]
  rw [g1] at hh
  generalize hH : hashL size [a, b] = h at *
  have hrest : ht.rest.data h = 0 := (t.empty h (by rw [g1]; exact hh) (g4 h)).2
  have hres : ht.rest.rd h = .ok 0 := by rw [Mem.rd_ok _ (by rw [t.restsz, g1]; exact hh), hrest]
  -- the insertion
  have hspace : 1 + 1 + nb 2 + 2 + ht.nameBytes = 5 + ht.nameBytes := by rw [hnb]
  generalize hsp : 5 + ht.nameBytes = space at *
  have hroom : junk.Room (ht.bufsize + ht.hbsize + space) := by
    rw [g2, t.hb]; constructor
    · omega
    · have := hmem.2; omega
  have ins : Tot (insertString junk ht (ofList [a, b]) 2 0) (fun r => r.2 = 1 ∧ r.1.htsize = size ∧
      r.1.head.size = size ∧ r.1.head.data h = 1 ∧ r.1.buf.size = 512 + space ∧ r.1.bufsize = 512 + space ∧
      r.1.buf.data 1 = 1 ∧ r.1.buf.data 2 = 2 ∧ r.1.buf.data 3 = (a + 1) % 256 ∧ r.1.buf.data 4 = a ∧
      ∀ i, i < 8 → r.1.buf.data (3 + i) < 256) := by
    unfold insertString
    rw [hashFunction_eq _ _ _ _ t.hts (by simp [ofList]), ok_bind, hs, g1, hH,
      Mem.rd_ok _ (by rw [t.headsz, g1]; exact hh), ok_bind, g4]
    simp only [whileM, insertStep, if_neg (show ¬ (0 : Nat) ≠ 0 by omega), ok_bind]
    rw [calculateLenlen_eq (by omega) (by norm_num)]
    simp only [ok_bind, show spaceRequired (nb 2) 2 ht.nameBytes = 1 + 1 + nb 2 + 2 + ht.nameBytes from rfl, hspace]
    unfold makeRoom
    rw [hres, ok_bind, show spaceLimit 0 = .ok (-12) by with_unfolding_all rfl, ok_bind, toI64_eq (by have := hroom.1; omega),
      if_pos (by omega)]
    unfold reallocBytes
    rw [if_pos hroom]
    simp only [ok_bind]
    rw [Mem.wr_ok _ _ (by rw [t.restsz, g1]; exact hh)]
    simp only [ok_bind, linkBlock, if_true]
    rw [Mem.wr_ok _ _ (by rw [t.headsz, g1]; exact hh)]
    simp only [ok_bind]
    rw [Tot_bind]
    have hw := writeRecord_tot (buf := (⟨ht.bufsize + ht.hbsize + space, fun i => if i < ht.buf.size then ht.buf.data i else junk i % 256⟩ : Mem Nat))
      (T := ofList [a, b]) (p := 0) (m := 2) ht.nameBytes 1 (by simp [ofList]) (by omega) (by norm_num)
      (by rw [hbl]; simp only [g2, t.hb]; omega) (by left; norm_num)
    rw [g2, t.hb] at hw ⊢
    refine hw.mono ?_
    rintro buf' ⟨w1, w2, w3, w4⟩
    rw [Tot_bind, Mem.rd_ok _ (by simp only [Mem.upd_size]; rw [t.restsz, g1]; exact hh), Tot_ok, Tot_bind,
      Mem.wr_ok _ _ (by simp only [Mem.upd_size]; rw [t.restsz, g1]; exact hh), Tot_ok, Tot_ok]
    rw [hs] at w2
    obtain ⟨⟨v1, v2⟩, v3, v4⟩ := w2
    refine ⟨rfl, rfl, by simp only [Mem.upd_size]; rw [t.headsz, g1], by simp, by simp [w1], by simp only; omega, ?_, ?_, ?_, ?_, ?_⟩
    · simp only [v1]; simpa using hnb
    · have := v2 0 (by simp [hnb]); simpa [hnb] using this
    · simp [hnb] at v3; simpa using v3
    · have := v4 0 (by simp)
      simpa [hnb] using this
    · intro i hi
      have hb1 := v4 1 (by simp)
      have hc1 := v4 0 (by simp)
      simp [hnb] at hb1 hc1 v3
      rw [hbl] at w3 w4
      simp only
      by_cases h3 : 3 ≤ i
      · by_cases h4 : i < 3 + ht.nameBytes
        · rw [w4 _ (by omega)]
          simp only [g3, if_neg (Nat.not_lt_zero _)]
          exact Nat.mod_lt _ (by omega)
        · rw [w3 _ (by omega) (by omega)]; omega
      · have : i = 0 ∨ i = 1 ∨ i = 2 := by omega
        rcases this with rfl | rfl | rfl
        · rw [show 3 + 0 = 3 from rfl, v3]; exact Nat.mod_lt _ (by omega)
        · rw [show 3 + 1 = 4 from rfl, hc1]; exact ha
        · rw [show 3 + 2 = 5 from rfl, hb1]; exact hb
  obtain ⟨⟨ht', r⟩, e', r1, r2, r3, r4, r5, r6, d1, d2, d3, d4, d5⟩ := Tot_iff.1 ins
  simp only at r1 r2 r3 r4 r5 r6 d1 d2 d3 d4 d5
  subst r1
  refine ⟨ht, ht', e, e', ?_⟩
  have hlen : getLength ht'.buf 1 = .ok 2 := by
    unfold getLength
    rw [Mem.rd_ok _ (by omega), ok_bind, d1, if_neg (by omega), Mem.rd_ok _ (by omega), ok_bind, d2]
    simp [loopUp]
  have hptr : Tot (getPointer ht'.buf 1) (fun x => 256 ^ 6 ≤ x) := by
    unfold getPointer
    refine (loopUp_spec (fun i x => x < 256 ^ i ∧ (2 ≤ i → 256 ^ (i - 2) ≤ x) ∧ (i = 1 → x = (a + 1) % 256)) 0 8 _ _
      ⟨by norm_num, by omega, by omega⟩ ?_).mono (fun x hx => hx.2.1 (by omega))
    rintro i x - hi ⟨i1, i2, i3⟩
    have hi8 : i < 8 := by omega
    have hb8 := d5 i hi8
    have hlt7 : x < 256 ^ 7 := lt_of_lt_of_le i1 (Nat.pow_le_pow_right (by omega) (by omega))
    rw [Tot_bind, Mem.rd_ok _ (by omega), Tot_ok, Tot_ok]
    rw [show 1 + 2 + i = 3 + i by omega, shl8_or hlt7 hb8]
    refine ⟨?_, ?_, ?_⟩
    · rw [pow_succ]; omega
    · intro h2
      by_cases h1 : i = 1
      · subst h1
        have := i3 rfl
        simp only [show 3 + 1 = 4 from rfl, d4]
        simp; omega
      · have := i2 (by omega)
        rw [show i + 1 - 2 = i - 2 + 1 by omega, pow_succ]; omega
    · intro h1
      have : i = 0 := by omega
      subst this
      simp at i1
      simp [i1, d3]
  intro s hsh
  obtain ⟨x, hx, hxl⟩ := Tot_iff.1 hptr
  have hoob : getLength ht'.buf x = .error (.ub .outOfBounds) := by
    unfold getLength
    rw [Mem.rd, if_neg (by omega)]; rfl
  have hx0 : x ≠ 0 := by omega
  constructor
  · unfold insertString
    rw [r2, hashFunction_eq _ _ _ _ h0 (by simp [ofList]), ok_bind, substr_ofList, hsh, Mem.rd_ok _ (by omega), ok_bind, r4]
    simp only [whileM, insertStep, if_pos (show (1 : Nat) ≠ 0 by omega), ok_bind, hlen, if_neg (show ¬ (2 : Nat) = 0 by omega), if_true,
      hx, if_pos hx0, hoob]
    rfl
  · unfold findName
    rw [r2, hashFunction_eq _ _ _ _ h0 (by simp [ofList]), ok_bind, substr_ofList, hsh, Mem.rd_ok _ (by omega), ok_bind, r4]
    simp only [whileM, findStep, if_pos (show (1 : Nat) ≠ 0 by omega), ok_bind, hlen, if_neg (show ¬ (2 : Nat) = 0 by omega), if_true,
      hx, if_pos hx0, hoob]
    rfl

-- two strings with the same hash value: the same string again, and, in a table of size 1, any other
example : ∃ ht ht', HashTable.new 1 100 = .ok ht ∧ insertString ⟨fun _ => 9, 1000⟩ ht (ofList [7, 8]) 2 0 = .ok (ht', 1) ∧
    insertString ⟨fun _ => 9, 1000⟩ ht' (ofList [7, 8]) 2 0 = .error (.ub .outOfBounds) ∧
    findName ht' (ofList [1, 2, 3]) 3 0 = .error (.ub .outOfBounds) := by
  obtain ⟨ht, ht', e, e', h⟩ := C61_two_byte_string 1 100 (by omega) (by norm_num) ⟨fun _ => 9, 1000⟩
    ⟨by norm_num, by norm_num⟩ 7 8 (by omega) (by omega)
  exact ⟨ht, ht', e, e', (h [7, 8] rfl).1, (h [1, 2, 3] (by simp [hashL, Nat.mod_one])).2⟩

example := C61_empty_string_diverges 3 100 (by omega) (by norm_num) ⟨fun _ => 7, 3000⟩
  [.insert [1, 2, 3], .find [9], .insert [1, 2, 3, 4]]
  (by
    intro op hop
    simp only [List.mem_cons, List.not_mem_nil, or_false] at hop
    rcases hop with rfl | rfl | rfl <;> simp [HOp.okFor])
  ⟨by simp [HOp.need], by simp [HOp.need]⟩

end HashTable
end Flbwt
