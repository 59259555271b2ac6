import Verif.Textbook
import Verif.Instances3
import Verif.PropsSaisInt

/-!
# C95: the textbook transform

`textbook` and `textbookFile` (`Textbook.lean`) are functions on lists that anybody can run; they mention neither suffix arrays nor
the model. `bwt_string` and `bwt_file` compute them.
-/

namespace Flbwt

section
variable {T : Mem Nat} {s : List Nat}

/-- **C95** The array `bwt_string` returns is the last column of the sorted rotations of the string with an end marker (characters
there are shifted by one, 0 is the marker): row by row, with the marker in row `last`, and nothing beyond. -/
theorem C95_last_column (w : World) (g : GoodCall w.junk w.sorter T s) (freeT : Bool) :
    ∃ r T', bwtString w (some T) s.length freeT = .ok (some r, T') ∧ r.bwt.size = (textbook s).length ∧
      textbook s = (List.range r.bwt.size).map (fun i => if i = r.last then 0 else r.bwt.data i + 1) := by
  obtain ⟨r, e, h1, h2⟩ := bwtString_good w g freeT
  refine ⟨r, _, e, by rw [h1, textbook_length], ?_⟩
  rw [h1]
  exact ((isBWT_iff_textbook s _ _).1 h2).2

/-- **C95** `last` is the row of the end marker. -/
theorem C95_marker_row (w : World) (g : GoodCall w.junk w.sorter T s) (freeT : Bool) :
    ∃ r T', bwtString w (some T) s.length freeT = .ok (some r, T') ∧ r.last = (textbook s).idxOf 0 ∧ (textbook s).count 0 = 1 := by
  obtain ⟨r, e, h1, h2⟩ := bwtString_good w g freeT
  refine ⟨r, _, e, h2.idxOf.symm, ?_⟩
  obtain ⟨hl, e2⟩ := (isBWT_iff_textbook s _ _).1 h2
  have : (textbook s).count 0 = (List.range (s.length + 1)).count r.last := by
    rw [e2, List.count, List.countP_map, List.count]
    refine List.countP_congr fun i _ => ?_
    simp only [Function.comp, beq_iff_eq]
    by_cases hc : i = r.last <;> simp [hc]
  rw [this]
  exact List.count_eq_one_of_mem List.nodup_range (List.mem_range.2 (by omega))

end

/-- **C95** The file `bwt_file` writes, byte by byte. -/
theorem C95_file {w : World} {h : Host} {inp out : String} {s : FState} {content : List Nat} (g : FileCall w h inp s content)
    (hw : h.mayWrite out = true) (ha : TakesAll h) :
    ∃ s', bwtFile w h inp out s = (.ok (), s') ∧ s'.files out = some (textbookFile content) ∧ ∀ f, f ≠ out → s'.files f = s.files f := by
  obtain ⟨bytes, s', e, h1, h2, h3⟩ := C07_file_format (out := out) g hw ha
  exact ⟨s', e, by rw [h2, (fileFormat_iff_textbook _ _).1 h1], h3⟩

section
open SaStore

/-- **C24, C25** Whatever its width, the sorter leaves what a naive sort of the suffixes gives. -/
theorem C25_naive_sort {S : Type} [LawfulSaStore S] (junk : Nat → Nat → BitVec 64) (sj : BitVec 64) (pa : PackedArray) (sa : S)
    (fs k fuel : Nat) (text : List Nat) (hcs : pa.bits ≠ width S) (htext : HoldsText sj pa text) (hn : text ≠ [])
    (hnw : text.length < 2 ^ (width S - 1)) (hkw : k ≤ 2 ^ (width S - 1)) (hT : ∀ c ∈ text, c < k)
    (hsz : text.length + fs ≤ size sa) (hf : text.length < 2 ^ fuel) :
    ∃ s', saisCall junk sj pa sa fs text.length k fuel = .ok s' ∧ saList s' text.length = sortedSuffixes text := by
  obtain ⟨s', e, h⟩ := Tot_iff.1 (saisCall_tot junk sj pa sa fs k fuel text hcs htext hn hnw hkw hT hsz hf)
  exact ⟨s', e, (isSuffixArray_iff_sorted _ _).1 h.2.2.2⟩

/-- **C70** the same for an integer text -/
theorem C70_naive_sort {S : Type} [LawfulSaStore S] (junk : Nat → Nat → BitVec 64) (sj : BitVec 64) (ta sa : S) (fs k fuel : Nat)
    (text : List Nat) (htext : HoldsInts ta text) (hn : text ≠ [])
    (hnw : text.length < 2 ^ (width S - 1)) (hkw : k ≤ 2 ^ (width S - 1)) (hT : ∀ c ∈ text, c < k)
    (hsz : text.length + fs ≤ size sa) (hf : text.length < 2 ^ fuel) :
    ∃ s', saisIntCall junk sj ta sa fs text.length k fuel = .ok s' ∧ saList s' text.length = sortedSuffixes text := by
  obtain ⟨s', e, h, _⟩ := C70_integer_text junk sj ta sa fs k fuel text htext hn hnw hkw hT hsz hf
  exact ⟨s', e, (isSuffixArray_iff_sorted _ _).1 h⟩

end

/-! ## Examples -/

/-- "banana": the rotations of "banana$" in order are "$banana", "a$banan", "ana$ban", "anana$b", "banana$", "na$bana", "nana$ba". -/
example : textbook banana = [98, 111, 111, 99, 0, 98, 98] := by decide +kernel
example : sortedRotations [1, 0, 1, 2] = [[0, 1, 2, 1], [1, 0, 1, 2], [1, 2, 1, 0], [2, 1, 0, 1]] := by decide +kernel
example : textbookFile banana = [0, 0, 0, 0, 0, 0, 0, 4, 97, 110, 110, 98, 97, 97] := by decide +kernel

example (sj : BitVec 64) (freeT : Bool) : ∃ r T', bwtString (bananaWorld sj) (some (cString banana)) 6 freeT = .ok (some r, T') ∧
    textbook banana = (List.range r.bwt.size).map (fun i => if i = r.last then 0 else r.bwt.data i + 1) := by
  obtain ⟨r, T', e, _, h⟩ := C95_last_column (bananaWorld sj) (T := cString banana) (s := banana) banana_good freeT
  exact ⟨r, T', e, h⟩

example (sj : BitVec 64) (freeT : Bool) : ∃ r T', bwtString (bananaWorld sj) (some (cString banana)) 6 freeT = .ok (some r, T') ∧ r.last = 4 := by
  obtain ⟨r, T', e, h, _⟩ := C95_marker_row (bananaWorld sj) (T := cString banana) (s := banana) banana_good freeT
  exact ⟨r, T', e, h.trans (by decide +kernel)⟩

example : ∃ s', bwtFile niceWorld niceHost "in" "out" niceFiles = (.ok (), s') ∧
    s'.files "out" = some [0, 0, 0, 0, 0, 0, 0, 4, 97, 110, 110, 98, 97, 97] := by
  obtain ⟨s', e, h, _⟩ := C95_file (out := "out") nice_call rfl nice_takes
  exact ⟨s', e, h.trans (by decide +kernel)⟩

/-- "2 1 2 1 0" -/
example : sortedSuffixes [2, 1, 2, 1, 0] = [4, 3, 1, 2, 0] := by decide +kernel
example : ∃ s', saisIntCall (fun _ _ => 7) 4 demoInts (⟨⟨8, fun _ => 9⟩⟩ : S32) 3 5 3 31 = .ok s' ∧ saList s' 5 = [4, 3, 1, 2, 0] := by
  obtain ⟨s', e, h⟩ := C70_naive_sort (fun _ _ => 7) 4 demoInts (⟨⟨8, fun _ => 9⟩⟩ : S32) 3 3 31 [2, 1, 2, 1, 0] demoInts_holds (by decide)
    (by decide) (by decide) (by decide) (by decide) (by decide)
  exact ⟨s', e, h.trans (by decide +kernel)⟩

example : ∃ s', saisCall (fun _ _ => 5) 0 demoPacked (⟨⟨5, fun _ => 77⟩⟩ : S64) 0 5 3 63 = .ok s' ∧ saList s' 5 = [4, 3, 1, 2, 0] := by
  obtain ⟨s', e, h⟩ := C25_naive_sort (S := S64) (fun _ _ => 5) 0 demoPacked ⟨⟨5, fun _ => 77⟩⟩ 0 3 63 [2, 1, 2, 1, 0] (by decide) demo_holds
    (by decide) (by decide) (by decide) (by decide) (by decide) (by decide)
  exact ⟨s', e, h.trans (by decide +kernel)⟩

end Flbwt
