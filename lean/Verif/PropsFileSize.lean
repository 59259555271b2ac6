import Verif.PropsFile

/-!
# C90: `bwt_file` trusts the size reported by `ftell`

The code asks for the size of the input once (src/flbwt.cpp:37-39) and then reads that many bytes (src/flbwt.cpp:49). Here
`content` is what can be read when `fread` is called and `n` is what `ftell` said before; the two differ when another program
appends to the file or truncates it in between, and for special files. Nothing here is new code: the theorems are about
`bwtFile` of `File.lean`, where the answer of `ftell` is a parameter.
-/

namespace Flbwt

open FileM HashTable

section
variable {w : World} {h : Host} {inp out : String} {s : FState} {content : List Nat}

/-- A call on a readable file for which `ftell` says `n`, where `n` need not be the number of bytes that can be read; at
least one byte can be read; `malloc` and `realloc` work. Used in statements only: src/flbwt.cpp:27-58. -/
structure SizedCall (w : World) (h : Host) (inp : String) (s : FState) (content : List Nat) (n : Nat) : Prop where
  file : s.files inp = some content
  read : h.mayRead inp = true
  tell : h.tell content = n
  malloc : h.mallocOk (n + 1) = true
  some : 1 ≤ content.length ∧ 1 ≤ h.readMax
  len3 : 3 ≤ n
  len57 : n < 2 ^ 57
  byte : ∀ x ∈ content, x < 256
  sort : SortsOK w.sorter
  room : enoughFor n ≤ w.junk.lim

/-- **C90** whatever size `ftell` reports, the call returns normally and the output is the format of a string of exactly that
length: the bytes `fread` delivered, `k` of them, then `n - k` bytes of whatever the block from `malloc` contained. All
other files are unchanged. -/
theorem C90_size_is_trusted {n : Nat} (g : SizedCall w h inp s content n) (hw : h.mayWrite out = true) (ha : TakesAll h)
    (k : Nat) (hk : k = min (min n content.length) h.readMax) (stale : List Nat) (hl : stale.length = n - k)
    (hv : ∀ (i : Nat) (hi : i < stale.length), stale[i] = h.fresh (k + i) % 256)
    (hs : LengthsSafe w.junk (content.take k ++ stale)) :
    ∃ bytes s', bwtFile w h inp out s = (.ok (), s') ∧ s'.files out = some bytes ∧
      FileFormat (content.take k ++ stale) bytes ∧ decodeFile bytes = content.take k ++ stale ∧
      ∀ f, f ≠ out → s'.files f = s.files f := by
  obtain ⟨g1, g2⟩ := g.some
  have h3 := g.len3
  have ed : delivered h content n = content.take k := by
    unfold delivered
    rw [List.take_take, hk]
    rcases Nat.le_total n content.length with q | q
    · rw [Nat.min_eq_left q, Nat.min_comm]
    · rw [Nat.min_eq_right q]
      rcases Nat.le_total h.readMax content.length with q' | q'
      · rw [Nat.min_eq_right q', Nat.min_eq_left (by omega)]
      · rw [Nat.min_eq_left q', List.take_of_length_le (Nat.le_refl _), List.take_of_length_le (by omega)]
  have el : (content.take k).length = k := by rw [List.length_take]; omega
  have et : fileText h content n = content.take k ++ stale := by
    unfold fileText
    rw [ed, el]
    congr 1
    apply List.ext_getElem
    · simp; omega
    · intro i h1 h2
      rw [hv i h2]
      simp only [List.getElem_map, List.getElem_range]
  obtain ⟨l, h1, h2⟩ := bwtFile_run w h inp out s g.file g.read g.tell g.malloc (by rw [ed, el]; omega) h3 g.len57 g.byte
    g.sort (by rw [et]; exact hs) g.room hw
  rw [et] at h1
  refine ⟨l.flatten, _, h2, ?_, h1, h1.decode ?_, ?_⟩
  · rw [FState.store_at, appended_all ha]; rfl
  · rw [List.length_append, el, hl]
    have := g.len57
    have : k ≤ n := by omega
    omega
  · intro f hf; simp [FState.store, hf]

/-- **C90** a file that grows after `ftell`: the output is the transform of the part that existed at that moment; what was
appended is not in it, and no stale memory is. -/
theorem C90_file_grows {n : Nat} (g : SizedCall w h inp s content n) (hn : n ≤ content.length) (hr : n ≤ h.readMax)
    (hw : h.mayWrite out = true) (ha : TakesAll h) (hs : LengthsSafe w.junk (content.take n)) :
    ∃ bytes s', bwtFile w h inp out s = (.ok (), s') ∧ s'.files out = some bytes ∧ FileFormat (content.take n) bytes ∧
      decodeFile bytes = content.take n := by
  obtain ⟨b, s', h1, h2, h3, h4, _⟩ := C90_size_is_trusted g (out := out) hw ha n (by omega) [] (by simp)
    (fun i hi => absurd hi (Nat.not_lt_zero _)) (by rwa [List.append_nil])
  rw [List.append_nil] at h3 h4
  exact ⟨b, s', h1, h2, h3, h4⟩

/-- **C90** (violated expectation) a file that is truncated after `ftell`: the call returns normally, but the output decodes
to a string that is longer than the file, whose last `n - content.length` bytes are old heap memory of the process. -/
theorem C90_file_shrinks {n : Nat} (g : SizedCall w h inp s content n) (hn : content.length < n)
    (hr : content.length ≤ h.readMax) (hw : h.mayWrite out = true) (ha : TakesAll h) (stale : List Nat)
    (hl : stale.length = n - content.length)
    (hv : ∀ (i : Nat) (hi : i < stale.length), stale[i] = h.fresh (content.length + i) % 256)
    (hs : LengthsSafe w.junk (content ++ stale)) :
    ∃ bytes s', bwtFile w h inp out s = (.ok (), s') ∧ s'.files out = some bytes ∧ decodeFile bytes = content ++ stale ∧
      decodeFile bytes ≠ content := by
  have e : content.take content.length = content := List.take_of_length_le (Nat.le_refl _)
  obtain ⟨b, s', h1, h2, _, h4, _⟩ := C90_size_is_trusted g (out := out) hw ha content.length (by omega) stale hl hv
    (by rw [e]; exact hs)
  rw [e] at h4
  refine ⟨b, s', h1, h2, h4, ?_⟩
  rw [h4]
  intro q
  have := congrArg List.length q
  rw [List.length_append] at this
  omega

end

/-- **C90** (violated expectation) a special file whose size is reported as 0 although it can be read: `runtime_error`; no
file is touched, but the stream and the text block stay behind. -/
theorem C90_size_zero (w : World) (h : Host) (inp out : String) (s : FState) {content : List Nat}
    (hf : s.files inp = some content) (hr : h.mayRead inp = true) (ht : h.tell content = 0) (hm : h.mallocOk 1 = true) :
    bwtFile w h inp out s =
      (.error (.throw .runtimeError), { s with streams := s.streams + 1, blocks := s.blocks + 1 }) := by
  have ed : delivered h content 0 = [] := by simp [delivered]
  unfold bwtFile
  rw [run_ok (a := some content) (s' := { s with streams := s.streams + 1 }) (by unfold openR; rw [hf]; simp [hr])]
  have en : (h.tell content % 2 ^ 64).toNat = 0 := by rw [ht]; decide
  simp only [en]
  rw [if_pos (by exact hm), run_ok (m := FileM.alloc 1) rfl, ed]
  rfl

/-- **C90** (violated expectation) a file reported with 1 or 2 bytes of which at least one arrives, whatever it holds by then:
the null pointer is dereferenced; no file is touched. -/
theorem C90_size_tiny (w : World) (h : Host) (inp out : String) (s : FState) {content : List Nat} {n : Nat}
    (hf : s.files inp = some content) (hr : h.mayRead inp = true) (ht : h.tell content = n) (hm : h.mallocOk (n + 1) = true)
    (h1 : 1 ≤ n) (h2 : n ≤ 2) (hc : 1 ≤ content.length) (hk : 1 ≤ h.readMax) :
    ∃ s', bwtFile w h inp out s = (.error (.ub .nullDeref), s') ∧ s'.files = s.files := by
  have ed : 1 ≤ (delivered h content n).length := by
    unfold delivered; rw [List.length_take, List.length_take]; omega
  obtain ⟨T, ef, hT, _⟩ := fread_run (h := h) (c := content) (n := n)
  have et : transform w T n = .error (.ub .nullDeref) := by
    unfold transform
    rw [Mem.wr_ok _ _ (by omega), ok_bind, C04_short_input_null_deref w _ _ true h1 h2]
    rfl
  have en : (h.tell content % 2 ^ 64).toNat = n := by rw [ht]; omega
  unfold bwtFile
  rw [run_ok (a := some content) (s' := { s with streams := s.streams + 1 }) (by unfold openR; rw [hf]; simp [hr])]
  simp only [en]
  rw [Nat.mod_eq_of_lt (by omega), if_pos hm, run_ok (m := FileM.alloc 1) rfl, ef, run_ok (m := FileM.lift _) rfl,
    if_neg (by omega), run_ok (m := FileM.close) rfl, et, run_err (m := FileM.lift _) rfl]
  exact ⟨_, rfl, rfl⟩

/-! ## Examples -/

-- "banana" had 4 bytes when `ftell` was called: the output decodes to "bana"
example : ∃ bytes s', bwtFile niceWorld { niceHost with tell := fun _ => 4 } "in" "out" niceFiles = (.ok (), s') ∧
    s'.files "out" = some bytes ∧ decodeFile bytes = [98, 97, 110, 97] := by
  obtain ⟨b, s', h1, h2, _, h4⟩ := C90_file_grows (w := niceWorld) (h := { niceHost with tell := fun _ => 4 }) (inp := "in")
    (out := "out") (s := niceFiles) (content := banana) (n := 4)
    ⟨rfl, rfl, rfl, rfl, by decide, by decide, by decide, by decide, insSort_ok, by decide⟩ (by decide) (by decide) rfl
    (fun _ _ => Nat.le_refl _) (lengthsSafe_short _ (by decide))
  exact ⟨b, s', h1, h2, h4⟩

-- it had 8 bytes: two bytes of old memory are in the output
example : ∃ bytes s', bwtFile niceWorld { niceHost with tell := fun _ => 8 } "in" "out" niceFiles = (.ok (), s') ∧
    s'.files "out" = some bytes ∧ decodeFile bytes = banana ++ [7, 7] := by
  obtain ⟨b, s', h1, h2, h4, _⟩ := C90_file_shrinks (w := niceWorld) (h := { niceHost with tell := fun _ => 8 }) (inp := "in")
    (out := "out") (s := niceFiles) (content := banana) (n := 8)
    ⟨rfl, rfl, rfl, rfl, by decide, by decide, by decide, by decide, insSort_ok, by decide⟩ (by decide) (by decide) rfl
    (fun _ _ => Nat.le_refl _) [7, 7] rfl (by decide) (lengthsSafe_short _ (by decide))
  exact ⟨b, s', h1, h2, h4⟩

example : bwtFile niceWorld { niceHost with tell := fun _ => 0 } "in" "out" niceFiles =
    (.error (.throw .runtimeError), { niceFiles with streams := niceFiles.streams + 1, blocks := niceFiles.blocks + 1 }) :=
  C90_size_zero (content := banana) _ _ _ _ _ rfl rfl rfl rfl

example : ∃ s', bwtFile niceWorld { niceHost with tell := fun _ => 2 } "in" "out" niceFiles =
    (.error (.ub .nullDeref), s') ∧ s'.files = niceFiles.files :=
  C90_size_tiny (content := banana) (n := 2) _ _ _ _ _ rfl rfl rfl rfl (by decide) (by decide) (by decide) (by decide)

end Flbwt
