import Verif.DirtyHead
import Verif.PropsDirty3

/-!
# Property C92: a transform that is silently wrong

The consequence of the defect described in C18 when the recycled byte is 1 and the head string is the whole text.
-/

namespace Flbwt

open HashTable (ok_bind)

/-- No transform of `s` has in row 0 a byte that does not occur in `s`. -/
theorem not_IsBWT_of_row {s : List Nat} {b : Nat → Nat} {last r : Nat} (hr : r ≤ s.length) (hl : r ≠ last) (hb : b r ∉ s) :
    ¬ IsBWT s b last := by
  intro h
  have h1 : b r ∈ rowsWithout s.length b last :=
    List.mem_map.2 ⟨r, List.mem_filter.2 ⟨List.mem_range.2 (by omega), by simpa using hl⟩, rfl⟩
  exact hb (h.perm.mem_iff.1 h1)

/-- **C92** (violation of what a user expects) A text that never increases, followed by a smaller byte (for instance a C string
without increasing neighbours), of a length that is one less than a multiple of 256 but not of 65536: when the bytes `realloc`
hands out are 1, `bwt_string` returns normally and its result is wrong. Row 0 holds the byte after the text, which does not
occur in the text, in place of the last byte of the text; the other rows and `last` are those of the transform. -/
theorem C92_wrong_transform (w : World) (T : Mem Nat) (s : List Nat) (h57 : s.length < 2 ^ 57) (hb : ∀ c ∈ s, c < 256)
    (hT : HoldsPrefix T s) (hend : ∀ c ∈ s, T.data s.length < c) (hdec : s.Pairwise (fun a b => b ≤ a)) (hS : SortsOK w.sorter)
    (hm : (s.length + 1) % 256 = 0) (hm2 : (s.length + 1) % 65536 ≠ 0)
    (hjunk : ∀ i, w.junk i % 256 = 1) (hroom : enoughFor s.length ≤ w.junk.lim) (freeT : Bool) :
    ∃ r T', bwtString w (some T) s.length freeT = .ok (some r, T') ∧ r.bwt.size = s.length + 1 ∧ r.last = s.length ∧
      r.bwt.data 0 = T.data s.length ∧ (∀ i, 1 ≤ i → i < s.length → s[s.length - 1 - i]? = some (r.bwt.data i)) ∧
      ¬ IsBWT s r.bwt.data r.last := by
  have hh : HoldsString T s := ⟨hT, fun c hc => Nat.le_of_lt (hend c hc)⟩
  have h3 : 3 ≤ s.length := by omega
  have I := hh.input h3 h57 hb (hh.term_lt h3 hb)
  have hd : ∀ j, (h : j < s.length) → T.data j = s[j] := fun j h => hT.val j h
  have hdec' : ∀ j, j < s.length → T.data (j + 1) ≤ T.data j := by
    intro j hj
    by_cases h1 : j + 1 < s.length
    · rw [hd j hj, hd (j + 1) h1]
      exact List.pairwise_iff_getElem.1 hdec j (j + 1) hj h1 (by omega)
    · have := hend _ (List.getElem_mem hj)
      rw [show j + 1 = s.length by omega, hd j hj]; omega
  have hlt : T.data s.length < T.data (s.length - 1) := by
    have := hend _ (List.getElem_mem (show s.length - 1 < s.length by omega))
    rw [hd (s.length - 1) (by omega)]; exact this
  obtain ⟨⟨o, T'⟩, e, ⟨r, hr, r1, r2, r3, r4⟩, _⟩ := Tot_iff.1 (bwtIs_one w I hdec' hlt hroom hS hm (by omega) hjunk freeT)
  simp only at hr
  subst hr
  refine ⟨r, T', ?_, r1, r2, r3, ?_, ?_⟩
  · simp only [bwtString]
    rw [if_neg (by omega)]
    exact e
  · intro i i1 i2
    have h1 := r4 (s.length - i) (by omega) (by omega)
    rw [show s.length - (s.length - i) = i by omega, show s.length - i - 1 = s.length - 1 - i by omega, hd _ (by omega)] at h1
    rw [List.getElem?_eq_getElem (by omega), h1]
  · refine not_IsBWT_of_row (r := 0) (by omega) (by omega) ?_
    intro hc
    have := hend _ hc
    omega

/-! ### Consequences -/

/-- **C92** On `256 k - 1` equal bytes (not 0) the result depends on uninitialised memory: the transform when the fresh bytes
are 0, another result and no error when they are 1. -/
theorem C92_depends_on_memory (w : World) (k c : Nat) (hk : k % 256 ≠ 0) (hc1 : 1 ≤ c) (hc : c < 256) (hn : 256 * k - 1 < 2 ^ 57)
    (hS : SortsOK w.sorter) (lim : Nat) (hroom : enoughFor (256 * k - 1) ≤ lim) (freeT : Bool) :
    (∃ r T', bwtString { w with junk := ⟨fun _ => 0, lim⟩ } (some (cString (List.replicate (256 * k - 1) c))) (256 * k - 1) freeT =
        .ok (some r, T') ∧ IsBWT (List.replicate (256 * k - 1) c) r.bwt.data r.last) ∧
    (∃ r T', bwtString { w with junk := ⟨fun _ => 1, lim⟩ } (some (cString (List.replicate (256 * k - 1) c))) (256 * k - 1) freeT =
        .ok (some r, T') ∧ r.bwt.data 0 = 0 ∧ ¬ IsBWT (List.replicate (256 * k - 1) c) r.bwt.data r.last) := by
  refine ⟨(C45_depends_on_memory w k c (by omega) hc hn hS lim hroom freeT).1, ?_⟩
  have hl : (List.replicate (256 * k - 1) c).length = 256 * k - 1 := List.length_replicate
  have h0 : (cString (List.replicate (256 * k - 1) c)).data (List.replicate (256 * k - 1) c).length = 0 := by
    simp [cString]
  obtain ⟨r, T', e, _, _, g, _, h⟩ := C92_wrong_transform { w with junk := ⟨fun _ => 1, lim⟩ } (cString (List.replicate (256 * k - 1) c))
    (List.replicate (256 * k - 1) c) (by omega) (fun x hx => by rw [List.eq_of_mem_replicate hx]; exact hc) (cString_holds _).toHoldsPrefix
    (fun x hx => by rw [List.eq_of_mem_replicate hx, h0]; omega)
    (List.pairwise_replicate.2 (Or.inr (Nat.le_refl _))) hS (by omega) (by omega) (fun _ => rfl) (by rw [hl]; exact hroom) freeT
  rw [hl] at e
  exact ⟨r, T', e, by rw [g, h0], h⟩

section
variable (h : Host) (inp out : String) (s : FState)

/-- **C92** (violated expectation) `bwt_file` on a file of non-zero bytes that never increase, of a length that is one less than a
multiple of 256 but not of 65536, when the bytes `realloc` hands out are 1: it returns normally, and what it has written is
`last` followed by a zero byte and the reverse of the contents without its last byte. This is not the format: no transform of
these contents contains a zero byte, and the last byte of the contents is lost. -/
theorem C92_wrong_file (w : World) {content : List Nat} (h57 : content.length < 2 ^ 57)
    (hb : ∀ c ∈ content, 1 ≤ c ∧ c < 256) (hdec : content.Pairwise (fun a b => b ≤ a)) (hS : SortsOK w.sorter)
    (hm : (content.length + 1) % 256 = 0) (hm2 : (content.length + 1) % 65536 ≠ 0)
    (hjunk : ∀ i, w.junk i % 256 = 1) (hroom : enoughFor content.length ≤ w.junk.lim)
    (hf : s.files inp = some content) (hr : h.mayRead inp = true) (ht : h.tell content = content.length)
    (hma : h.mallocOk (content.length + 1) = true) (hk : content.length ≤ h.readMax) (hw : h.mayWrite out = true) (ha : TakesAll h) :
    ∃ s', bwtFile w h inp out s = (.ok (), s') ∧
      s'.files out = some (bigEndian8 content.length ++ 0 :: content.dropLast.reverse) ∧
      ¬ FileFormat content (bigEndian8 content.length ++ 0 :: content.dropLast.reverse) := by
  obtain ⟨T, hT, hT0, key⟩ := bwtFile_via h inp out s hf hr ht hma hk (by omega) (by omega)
  obtain ⟨r, T', e, g1, g2, g3, g4, _⟩ := C92_wrong_transform w T content h57 (fun c hc => (hb c hc).2) hT.toHoldsPrefix
    (fun c hc => by rw [hT0]; have := hb c hc; omega) hdec hS hm hm2 hjunk hroom true
  obtain ⟨l, h4, h5⟩ := writeResult_run h out (n := content.length) (r := r) (by omega) (by omega) (by omega)
    { s with blocks := s.blocks + 2 } (Nat.le_add_left 2 _) hw
  have hrows : rowsWithout content.length r.bwt.data r.last = 0 :: content.dropLast.reverse := by
    rw [g2, rowsWithout_split _ (Nat.le_refl _), Nat.sub_self]
    simp only [List.range_zero, List.map_nil, List.append_nil]
    apply List.ext_getElem
    · simp; omega
    · intro i i1 i2
      rw [List.length_map, List.length_range] at i1
      simp only [List.getElem_map, List.getElem_range]
      cases i with
      | zero => rw [g3, hT0]; rfl
      | succ i =>
        rw [List.getElem_cons_succ, List.getElem_reverse, List.getElem_dropLast]
        have := g4 (i + 1) (by omega) i1
        rw [List.getElem?_eq_getElem (by omega)] at this
        injection this with this
        rw [← this]
        congr 1
        rw [List.length_dropLast]
        omega
  have hlf : l.flatten = bigEndian8 content.length ++ 0 :: content.dropLast.reverse := by rw [h4, hrows, g2]
  refine ⟨_, ((key w).2 r T' e).trans h5, ?_, ?_⟩
  · rw [FState.store_at, appended_all ha, List.nil_append, hlf]
  · rintro ⟨b, last, hB, he⟩
    have h2 := (List.append_inj he (by rw [bigEndian8_length, bigEndian8_length])).2
    have h0 : 0 ∈ rowsWithout content.length b last := by rw [← h2]; simp
    have := hb 0 (hB.perm.mem_iff.1 h0)
    omega

/-- **C92** Contents that differ only in their last byte give the same output: what was in the input cannot be recovered. -/
theorem C92_information_lost (w : World) {l : List Nat} {a b : Nat} (hab : a ≠ b) (h57 : l.length + 1 < 2 ^ 57)
    (ha1 : 1 ≤ a) (hb1 : 1 ≤ b) (hbl : ∀ c ∈ l, a ≤ c ∧ b ≤ c ∧ c < 256) (hdec : l.Pairwise (fun a b => b ≤ a)) (hS : SortsOK w.sorter)
    (hm : (l.length + 2) % 256 = 0) (hm2 : (l.length + 2) % 65536 ≠ 0)
    (hjunk : ∀ i, w.junk i % 256 = 1) (hroom : enoughFor (l.length + 1) ≤ w.junk.lim) (inp2 out2 : String)
    (hf : s.files inp = some (l ++ [a])) (hf2 : s.files inp2 = some (l ++ [b])) (hr : h.mayRead inp = true) (hr2 : h.mayRead inp2 = true)
    (ht : h.tell (l ++ [a]) = (l.length + 1 : Nat)) (ht2 : h.tell (l ++ [b]) = (l.length + 1 : Nat))
    (hma : h.mallocOk (l.length + 2) = true) (hk : l.length + 1 ≤ h.readMax)
    (hw : h.mayWrite out = true) (hw2 : h.mayWrite out2 = true) (ha : TakesAll h) :
    l ++ [a] ≠ l ++ [b] ∧ ∃ s1 s2 bytes, bwtFile w h inp out s = (.ok (), s1) ∧ bwtFile w h inp2 out2 s = (.ok (), s2) ∧
      s1.files out = some bytes ∧ s2.files out2 = some bytes := by
  have key : ∀ (x : Nat) (i o : String), (1 ≤ x) → (∀ c ∈ l, x ≤ c) → s.files i = some (l ++ [x]) → h.mayRead i = true →
      h.tell (l ++ [x]) = (l.length + 1 : Nat) → h.mayWrite o = true → ∃ s', bwtFile w h i o s = (.ok (), s') ∧
        s'.files o = some (bigEndian8 (l.length + 1) ++ 0 :: l.reverse) := by
    intro x i o hx hxl hf hr ht hw
    have hl : (l ++ [x]).length = l.length + 1 := by simp
    obtain ⟨c, hc⟩ : ∃ c, c ∈ l := List.exists_mem_of_length_pos (by omega)
    have hx256 : x < 256 := Nat.lt_of_le_of_lt (hxl c hc) (hbl c hc).2.2
    obtain ⟨s', e1, e2, _⟩ := C92_wrong_file h i o s w (content := l ++ [x]) (by omega) (by
        intro c hc
        rcases List.mem_append.1 hc with hc | hc
        · have := hbl c hc; omega
        · rw [List.mem_singleton] at hc; omega) (by
        rw [List.pairwise_append]
        refine ⟨hdec, by simp, fun c hc d hd => ?_⟩
        rw [List.mem_singleton] at hd
        subst hd
        exact hxl c hc) hS (by rw [hl]; exact hm) (by rw [hl]; exact hm2) hjunk (by rw [hl]; exact hroom) hf hr
      (by rw [hl]; exact ht) (by rw [hl]; exact hma) (by rw [hl]; exact hk) hw ha
    rw [hl, List.dropLast_concat] at e2
    exact ⟨s', e1, e2⟩
  obtain ⟨s1, e1, f1⟩ := key a inp out ha1 (fun c hc => (hbl c hc).1) hf hr ht hw
  obtain ⟨s2, e2, f2⟩ := key b inp2 out2 hb1 (fun c hc => (hbl c hc).2.1) hf2 hr2 ht2 hw2
  exact ⟨by simpa using hab, s1, s2, _, e1, e2, f1, f2⟩

end

/-- 255 letters "a", fresh bytes 1: no error, row 0 is the zero byte -/
example : ∃ r T', bwtString ⟨⟨fun _ => 1, 40000000⟩, fun _ => 9, fun _ => 5, fun _ => 7, fun _ _ => 1, fun _ _ _ _ => 2, fun _ => 3, 4, insSort⟩
    (some (cString (List.replicate 255 97))) 255 true = .ok (some r, T') ∧ r.bwt.data 0 = 0 ∧
      ¬ IsBWT (List.replicate 255 97) r.bwt.data r.last :=
  (C92_depends_on_memory ⟨⟨fun _ => 1, 40000000⟩, fun _ => 9, fun _ => 5, fun _ => 7, fun _ _ => 1, fun _ _ _ _ => 2, fun _ => 3, 4, insSort⟩
    1 97 (by decide) (by decide) (by decide) (by decide) insSort_ok 40000000 (by decide) true).2

/-- two files, "b…ba" and "b…bb" (255 bytes), one output -/
example : ∃ s1 s2 bytes, bwtFile ⟨⟨fun _ => 1, 40000000⟩, fun _ => 9, fun _ => 5, fun _ => 7, fun _ _ => 1, fun _ _ _ _ => 2, fun _ => 3, 4, insSort⟩
    niceHost "in" "out" { niceFiles with files := fun f => if f = "in" then some (List.replicate 254 98 ++ [97]) else some (List.replicate 254 98 ++ [98]) } = (.ok (), s1) ∧
    bwtFile ⟨⟨fun _ => 1, 40000000⟩, fun _ => 9, fun _ => 5, fun _ => 7, fun _ _ => 1, fun _ _ _ _ => 2, fun _ => 3, 4, insSort⟩
    niceHost "in2" "out2" { niceFiles with files := fun f => if f = "in" then some (List.replicate 254 98 ++ [97]) else some (List.replicate 254 98 ++ [98]) } = (.ok (), s2) ∧
    s1.files "out" = some bytes ∧ s2.files "out2" = some bytes := by
  have hl : (List.replicate 254 98).length = 254 := List.length_replicate
  refine (C92_information_lost niceHost "in" "out" _ _ (a := 97) (b := 98) (l := List.replicate 254 98) (by omega) (by omega) (by omega) (by omega)
    (fun c hc => by rw [List.eq_of_mem_replicate hc]; omega) (List.pairwise_replicate.2 (Or.inr (Nat.le_refl _))) insSort_ok
    (by rw [hl]) (by rw [hl]; omega) (fun _ => rfl) (by rw [hl]; decide) "in2" "out2" rfl rfl rfl rfl ?_ ?_ rfl (by rw [hl]; decide) rfl rfl nice_takes).2
  · exact congrArg Nat.cast (by rw [List.length_append, List.length_singleton])
  · exact congrArg Nat.cast (by rw [List.length_append, List.length_singleton])

end Flbwt
