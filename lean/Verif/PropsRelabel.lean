import Verif.PropsAgree

/-!
# C98: only the order of the characters counts

Replace the characters of the text by others in the same order (a strictly increasing table `f`, as in recoding an alphabet): the
row of the text stays, and every row of the result is recoded by the same table.
-/

namespace Flbwt

/-- The table keeps the order of the characters of `s`. -/
def KeepsOrder (f : Nat → Nat) (s : List Nat) : Prop := ∀ a ∈ s, ∀ b ∈ s, a < b → f a < f b

section
variable {f : Nat → Nat} {s : List Nat}

theorem KeepsOrder.lt_iff (h : KeepsOrder f s) {a b : Nat} (ha : a ∈ s) (hb : b ∈ s) : f a < f b ↔ a < b := by
  refine ⟨fun h1 => ?_, h a ha b hb⟩
  rcases Nat.lt_trichotomy a b with h2 | h2 | h2
  · exact h2
  · subst h2; omega
  · have := h b hb a ha h2; omega

theorem KeepsOrder.eq_iff (h : KeepsOrder f s) {a b : Nat} (ha : a ∈ s) (hb : b ∈ s) : f a = f b ↔ a = b := by
  refine ⟨fun h1 => ?_, fun h1 => by rw [h1]⟩
  rcases Nat.lt_trichotomy a b with h2 | h2 | h2
  · have := h a ha b hb h2; omega
  · exact h2
  · have := h b hb a ha h2; omega

theorem map_lt_map (h : KeepsOrder f s) : ∀ (x y : List Nat), (∀ a ∈ x, a ∈ s) → (∀ a ∈ y, a ∈ s) → (x.map f < y.map f ↔ x < y)
  | [], [], _, _ => by simp
  | [], b :: y, _, _ => by simp
  | a :: x, [], _, _ => by simp
  | a :: x, b :: y, hx, hy => by
    have ha := hx a List.mem_cons_self
    have hb := hy b List.mem_cons_self
    rw [List.map_cons, List.map_cons, List.cons_lt_cons_iff, List.cons_lt_cons_iff, h.lt_iff ha hb, h.eq_iff ha hb,
      map_lt_map h x y (fun c hc => hx c (List.mem_cons_of_mem _ hc)) (fun c hc => hy c (List.mem_cons_of_mem _ hc))]

theorem suffix_map_lt (h : KeepsOrder f s) (i j : Nat) : (s.map f).drop i < (s.map f).drop j ↔ s.drop i < s.drop j := by
  rw [← List.map_drop, ← List.map_drop]
  exact map_lt_map h _ _ (fun a ha => List.mem_of_mem_drop ha) (fun a ha => List.mem_of_mem_drop ha)

theorem IsBWT.map {b : Nat → Nat} {last : Nat} (h : IsBWT s b last) (hf : KeepsOrder f s) :
    IsBWT (s.map f) (fun i => f (b i)) last := by
  obtain ⟨sa, ⟨h1, h2⟩, h3⟩ := h
  refine ⟨sa, ⟨by rw [List.length_map]; exact h1, h2.imp fun h => (suffix_map_lt hf _ _).2 h⟩, fun r hr => ⟨(h3 r hr).1, fun hp => ?_⟩⟩
  rw [List.getElem?_map, (h3 r hr).2 hp]
  rfl

theorem SType.map_iff (hf : KeepsOrder f s) (i : Nat) : SType (s.map f) i ↔ SType s i := suffix_map_lt hf _ _
theorem SStar.map_iff (hf : KeepsOrder f s) (i : Nat) : SStar (s.map f) i ↔ SStar s i := by
  unfold SStar; rw [SType.map_iff hf, SType.map_iff hf, List.length_map]
theorem NextStar.map_iff (hf : KeepsOrder f s) (i j : Nat) : NextStar (s.map f) i j ↔ NextStar s i j := by
  unfold NextStar; simp only [SStar.map_iff hf, List.length_map]
theorem NoLength256.map_iff (hf : KeepsOrder f s) : NoLength256 (s.map f) ↔ NoLength256 s := by
  unfold NoLength256; simp only [SStar.map_iff hf, NextStar.map_iff hf]

variable {T T' : Mem Nat}

/-- **C98** A recoded text is accepted exactly where the text is: in the same world, in every buffer that holds it. -/
theorem C98_accepted (w : World) (g : GoodCall w.junk w.sorter T s) (hf : KeepsOrder f s) (hb : ∀ c ∈ s, f c < 256)
    (hT : HoldsString T' (s.map f)) : GoodCall w.junk w.sorter T' (s.map f) := by
  refine ⟨by rw [List.length_map]; exact g.len3, by rw [List.length_map]; exact g.len57, ?_, hT, g.sort, ?_,
    by rw [List.length_map]; exact g.room⟩
  · intro c hc
    obtain ⟨a, ha, rfl⟩ := List.mem_map.1 hc
    exact hb a ha
  · exact g.safe.imp id (NoLength256.map_iff hf).2

/-- **C98** … and only there. -/
theorem C98_accepted_iff (w : World) (hf : KeepsOrder f s) (hs : ∀ c ∈ s, c < 256) (hb : ∀ c ∈ s, f c < 256) (hT : HoldsString T s)
    (hT' : HoldsString T' (s.map f)) : GoodCall w.junk w.sorter T' (s.map f) ↔ GoodCall w.junk w.sorter T s := by
  refine ⟨fun g => ?_, fun g => C98_accepted w g hf hb hT'⟩
  have h3 := g.len3
  have h57 := g.len57
  have hr := g.room
  rw [List.length_map] at h3 h57 hr
  exact ⟨h3, h57, hs, hT, g.sort, g.safe.imp id (NoLength256.map_iff hf).1, hr⟩

/-- **C98** The transform of the recoded text: the same row of the text, and every other row recoded. -/
theorem C98_recoded (w : World) (g : GoodCall w.junk w.sorter T s) (hf : KeepsOrder f s) (hb : ∀ c ∈ s, f c < 256)
    (hT : HoldsString T' (s.map f)) (freeT freeT' : Bool) :
    ∃ r r' b b', bwtString w (some T) s.length freeT = .ok (some r, b) ∧ bwtString w (some T') s.length freeT' = .ok (some r', b') ∧
      r'.last = r.last ∧ r'.bwt.size = r.bwt.size ∧ ∀ i, i ≤ s.length → i ≠ r.last → r'.bwt.data i = f (r.bwt.data i) := by
  obtain ⟨r, e, h1, h2⟩ := bwtString_good w g freeT
  obtain ⟨r', e', h1', h2'⟩ := bwtString_good w (C98_accepted w g hf hb hT) freeT'
  rw [List.length_map] at e' h1'
  obtain ⟨hl, hd⟩ := h2'.unique (h2.map hf)
  refine ⟨r, r', _, _, e, e', hl, by rw [h1, h1'], fun i hi hne => hd i (by rw [List.length_map]; exact hi) (by rw [hl]; exact hne)⟩

/-- **C98** The same for files: the first 8 bytes stay, the others are recoded. -/
theorem C98_file {w w' : World} {h h' : Host} {inp inp' out out' : String} {st st' : FState}
    (g : FileCall w h inp st s) (hw : h.mayWrite out = true) (ha : TakesAll h)
    (g' : FileCall w' h' inp' st' (s.map f)) (hw' : h'.mayWrite out' = true) (ha' : TakesAll h') (hf : KeepsOrder f s) :
    ∃ s₁ s₂ head rows, bwtFile w h inp out st = (.ok (), s₁) ∧ bwtFile w' h' inp' out' st' = (.ok (), s₂) ∧ head.length = 8 ∧
      rows.length = s.length ∧ s₁.files out = some (head ++ rows) ∧ s₂.files out' = some (head ++ rows.map f) := by
  obtain ⟨bytes, s₁, e1, h1, h2, _⟩ := C07_file_format (out := out) g hw ha
  obtain ⟨bytes', s₂, e1', h1', h2', _⟩ := C07_file_format (out := out') g' hw' ha'
  obtain ⟨b, last, h3, rfl⟩ := h1
  have hl := h3.last_lt
  refine ⟨s₁, s₂, _, _, e1, e1', bigEndian8_length _, rowsWithout_length b (by omega), h2, ?_⟩
  rw [h2', (fileFormat_iff_textbook _ _).1 h1', ← (fileFormat_iff_textbook (s.map f) _).1 ⟨_, _, h3.map hf, rfl⟩]
  unfold rowsWithout
  rw [List.map_map, List.length_map]
  rfl

end

/-! ## Examples -/

/-- A recoding of the letters a, b, n to 0, 7, 255. Used in the examples only. -/
def exampleCode (c : Nat) : Nat := if c = 97 then 0 else if c = 98 then 7 else 255

example : KeepsOrder exampleCode banana := by unfold KeepsOrder; decide
example : banana.map exampleCode = [7, 0, 255, 0, 255, 0] := by decide

example (sj : BitVec 64) : GoodCall (bananaWorld sj).junk (bananaWorld sj).sorter (cString [7, 0, 255, 0, 255, 0]) [7, 0, 255, 0, 255, 0] ↔
    GoodCall (bananaWorld sj).junk (bananaWorld sj).sorter (cString banana) banana :=
  C98_accepted_iff (bananaWorld sj) (s := banana) (f := exampleCode) (by unfold KeepsOrder; decide) (by decide) (by decide) (cString_holds _)
    (cString_holds [7, 0, 255, 0, 255, 0])

-- "banana" and its recoding: all hypotheses are met
example (sj : BitVec 64) (x y : Bool) : ∃ r r' b b', bwtString (bananaWorld sj) (some (cString banana)) 6 x = .ok (some r, b) ∧
    bwtString (bananaWorld sj) (some (cString [7, 0, 255, 0, 255, 0])) 6 y = .ok (some r', b') ∧
      r'.last = r.last ∧ r'.bwt.size = r.bwt.size ∧ ∀ i, i ≤ 6 → i ≠ r.last → r'.bwt.data i = exampleCode (r.bwt.data i) :=
  C98_recoded (bananaWorld sj) (T := cString banana) (s := banana) (f := exampleCode) banana_good (by unfold KeepsOrder; decide)
    (by decide) (cString_holds [7, 0, 255, 0, 255, 0]) x y

example : ∃ s₁ s₂ head rows, bwtFile niceWorld niceHost "in" "out" niceFiles = (.ok (), s₁) ∧
    bwtFile niceWorld niceHost "x" "y" { niceFiles with files := fun f => if f = "x" then some [7, 0, 255, 0, 255, 0] else none } = (.ok (), s₂) ∧
      head.length = 8 ∧ rows.length = banana.length ∧ s₁.files "out" = some (head ++ rows) ∧
      s₂.files "y" = some (head ++ rows.map exampleCode) :=
  C98_file (f := exampleCode) nice_call rfl nice_takes
    ⟨rfl, rfl, rfl, rfl, by decide, by decide, by decide, by decide, insSort_ok, lengthsSafe_short _ (by decide), by decide⟩ rfl nice_takes
    (by unfold KeepsOrder; decide)

end Flbwt
