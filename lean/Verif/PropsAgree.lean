import Verif.PropsFileFail
import Verif.PropsTextbook
import Verif.Shape

/-!
# C96: `bwt_file` is `bwt_string` between reading and writing

What the two entry points of `flbwt.h` have to do with one another. The first theorem needs nothing of the text, of the memory or
of the sorter: whatever `bwt_string` does with the bytes of the file, `bwt_file` does.
-/

namespace Flbwt

open FileM

section
variable (h : Host) (inp out : String) (s : FState)

/-- **C96** In every world: if `bwt_string` on the bytes of the file (a 0 after them) fails, `bwt_file` fails in the same way and
has touched no file; if it returns an array and a row number in it, `bwt_file` leaves in the output
file the row number in 8 bytes, the rows before it and the rows behind it, and changes no other file. -/
theorem C96_file_from_string {content : List Nat} (hf : s.files inp = some content) (hr : h.mayRead inp = true)
    (ht : h.tell content = content.length) (hm : h.mallocOk (content.length + 1) = true) (hk : content.length ≤ h.readMax)
    (h1 : 1 ≤ content.length) (h63 : content.length < 2 ^ 63) (hw : h.mayWrite out = true) (ha : TakesAll h) :
    ∃ T, HoldsString T content ∧ T.data content.length = 0 ∧ ∀ w : World,
      (∀ e, bwtString w (some T) content.length true = .error e →
        ∃ s', bwtFile w h inp out s = (.error e, s') ∧ s'.files = s.files) ∧
      (∀ r T', bwtString w (some T) content.length true = .ok (some r, T') → r.last ≤ content.length →
        ∃ s', bwtFile w h inp out s = (.ok (), s') ∧
          s'.files out = some (bigEndian8 r.last ++ (List.range r.last).map r.bwt.data ++
            (List.range (content.length - r.last)).map (fun i => r.bwt.data (r.last + 1 + i))) ∧
          ∀ f, f ≠ out → s'.files f = s.files f) := by
  obtain ⟨T, hT, h0, key⟩ := bwtFile_via h inp out s hf hr ht hm hk h1 h63
  refine ⟨T, hT, h0, fun w => ⟨fun e he => ⟨_, (key w).1 e he, rfl⟩, fun r T' he hl => ?_⟩⟩
  have hs : r.bwt.size = content.length + 1 := (bwtString_shape w (some T) content.length true _ he).2.2.2 r rfl
  obtain ⟨l, h4, h5⟩ := writeResult_run h out (n := content.length) (r := r) (by omega) hs hl { s with blocks := s.blocks + 2 }
    (Nat.le_add_left 2 _) hw
  refine ⟨_, ((key w).2 r T' he).trans h5, ?_, fun f hf => by simp [FState.store, hf]⟩
  show (s.store out _).files out = _
  rw [FState.store_at, appended_all ha, List.nil_append, h4, rowsWithout_split _ hl, List.append_assoc]

end

/-- **C96** The two entry points agree, also across machines: `bwt_file` here and `bwt_string` there, with other memory contents,
another sort routine, another buffer holding the same bytes, give the same row number and the same rows. -/
theorem C96_entry_points_agree {w w' : World} {h : Host} {inp out : String} {s : FState} {content : List Nat} {T : Mem Nat}
    (g : FileCall w h inp s content) (hw : h.mayWrite out = true) (ha : TakesAll h) (g' : GoodCall w'.junk w'.sorter T content)
    (freeT : Bool) :
    ∃ r T' s', bwtString w' (some T) content.length freeT = .ok (some r, T') ∧ bwtFile w h inp out s = (.ok (), s') ∧
      r.last ≤ content.length ∧ r.bwt.size = content.length + 1 ∧
      s'.files out = some (bigEndian8 r.last ++ (List.range r.last).map r.bwt.data ++
        (List.range (content.length - r.last)).map (fun i => r.bwt.data (r.last + 1 + i))) := by
  obtain ⟨r, e, h1, h2⟩ := bwtString_good w' g' freeT
  obtain ⟨s', e', h3, _⟩ := C95_file (out := out) g hw ha
  have hl : r.last ≤ content.length := Nat.le_of_lt_succ h2.last_lt
  refine ⟨r, _, s', e, e', hl, h1, ?_⟩
  rw [h3, ← (fileFormat_iff_textbook content _).1 ⟨_, _, h2, rfl⟩, rowsWithout_split _ hl, List.append_assoc]

/-- **C97** No assumption at all: whatever the text, the fresh memory, the sort routine and the memory limit are, if `bwt_string`
returns then the pointer was not null, the length was at least 3, the caller's text has been released exactly if `free_T` was set,
and an array that was returned has `n + 1` rows. -/
theorem C97_shape (w : World) (T : Option (Mem Nat)) (n : Nat) (freeT : Bool) (b : Option BwtResult) (T' : Option (Mem Nat))
    (e : bwtString w T n freeT = .ok (b, T')) :
    T ≠ none ∧ 3 ≤ n ∧ T' = (if freeT then none else T) ∧ ∀ r, b = some r → r.bwt.size = n + 1 := by
  obtain ⟨h1, h2, h3, h4⟩ := bwtString_shape w T n freeT _ e
  exact ⟨h1, h3, h2, h4⟩

/-- **C97** the same for `bwt_file`: it writes an output file only for inputs of at least 3 bytes. -/
theorem C97_short_never_written (w : World) (h : Host) (inp out : String) (s : FState) {content : List Nat}
    (hf : s.files inp = some content) (hr : h.mayRead inp = true) (ht : h.tell content = content.length)
    (hm : h.mallocOk (content.length + 1) = true) (hk : content.length ≤ h.readMax) (h1 : 1 ≤ content.length)
    (hs : content.length ≤ 2) : ∃ e s', bwtFile w h inp out s = (.error e, s') ∧ s'.files = s.files := by
  obtain ⟨T, _, _, key⟩ := bwtFile_via h inp out s hf hr ht hm hk h1 (by omega)
  cases e : bwtString w (some T) content.length true with
  | error e' => exact ⟨_, _, (key w).1 e' e, rfl⟩
  | ok a => have := (bwtString_shape w (some T) content.length true a e).2.2.1; omega

/-- **C96** If the output cannot be opened, the result of `bwt_string` is lost: `std::invalid_argument`, and no file changes. -/
theorem C96_output_refused (w : World) (h : Host) (inp out : String) (s : FState) {content : List Nat} (hf : s.files inp = some content)
    (hr : h.mayRead inp = true) (ht : h.tell content = content.length) (hm : h.mallocOk (content.length + 1) = true)
    (hk : content.length ≤ h.readMax) (h1 : 1 ≤ content.length) (h63 : content.length < 2 ^ 63) (hw : h.mayWrite out = false) :
    ∃ T, HoldsString T content ∧ T.data content.length = 0 ∧
      ∀ r T', bwtString w (some T) content.length true = .ok (some r, T') →
        ∃ s', bwtFile w h inp out s = (.error (.throw .invalidArgument), s') ∧ s'.files = s.files := by
  obtain ⟨T, hT, h0, key⟩ := bwtFile_via h inp out s hf hr ht hm hk h1 h63
  refine ⟨T, hT, h0, fun r T' he => ?_⟩
  refine ⟨_, ((key w).2 r T' he).trans (show _ = (_, { s with blocks := s.blocks + 2 }) from ?_), rfl⟩
  unfold writeResult
  rw [run_ok (s' := { s with blocks := s.blocks + 2 }) (a := false) (by unfold openW; rw [hw]; rfl)]
  rfl

/-! ## Examples -/

-- "banana" with every hypothesis met
example (sj : BitVec 64) : ∃ b T', bwtString (bananaWorld sj) (some (cString banana)) 6 true = .ok (b, T') ∧ T' = none := by
  obtain ⟨r, e, _⟩ := bwtString_good (bananaWorld sj) (T := cString banana) (s := banana) banana_good true
  exact ⟨_, _, e, (C97_shape _ _ _ _ _ _ e).2.2.1⟩

-- a file of two bytes
example (w : World) : ∃ e s', bwtFile w niceHost "in" "out" { niceFiles with files := fun f => if f = "in" then some [97, 98] else none } =
    (.error e, s') ∧ s'.files = fun f => if f = "in" then some [97, 98] else none :=
  C97_short_never_written w niceHost "in" "out" _ (content := [97, 98]) rfl rfl rfl rfl (by decide) (by decide) (by decide)

example : ∃ T, HoldsString T banana ∧ T.data 6 = 0 ∧ ∀ w : World,
    (∀ e, bwtString w (some T) 6 true = .error e →
      ∃ s', bwtFile w niceHost "in" "out" niceFiles = (.error e, s') ∧ s'.files = niceFiles.files) := by
  obtain ⟨T, h1, h2, h3⟩ := C96_file_from_string niceHost "in" "out" niceFiles nice_call.file nice_call.read nice_call.tell nice_call.malloc
    nice_call.full (by decide) (by decide) rfl nice_takes
  exact ⟨T, h1, h2, fun w => (h3 w).1⟩

-- "banana", the file in one world, the string in another
example (sj : BitVec 64) (freeT : Bool) : ∃ r T' s',
    bwtString (bananaWorld sj) (some (cString banana)) 6 freeT = .ok (some r, T') ∧
      bwtFile niceWorld niceHost "in" "out" niceFiles = (.ok (), s') ∧ r.last ≤ 6 ∧ r.bwt.size = 7 ∧
      s'.files "out" = some (bigEndian8 r.last ++ (List.range r.last).map r.bwt.data ++
        (List.range (6 - r.last)).map (fun i => r.bwt.data (r.last + 1 + i))) :=
  C96_entry_points_agree (w' := bananaWorld sj) (T := cString banana) nice_call rfl nice_takes banana_good freeT

-- "banana", the output may not be written
example : ∃ T, HoldsString T banana ∧ T.data 6 = 0 ∧ ∀ r T', bwtString niceWorld (some T) 6 true = .ok (some r, T') →
    ∃ s', bwtFile niceWorld { niceHost with mayWrite := fun _ => false } "in" "out" niceFiles = (.error (.throw .invalidArgument), s') ∧
      s'.files = niceFiles.files :=
  C96_output_refused niceWorld _ "in" "out" niceFiles (content := banana) rfl rfl rfl rfl (by decide) (by decide) (by decide) rfl

end Flbwt
