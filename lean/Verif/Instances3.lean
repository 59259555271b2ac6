import Verif.Instances
import Verif.PropsFileChain
import Verif.PropsFileSize
import Verif.PropsConcFile
import Verif.PropsLost
import Verif.PropsMirror
import Verif.PropsFileFail
import Verif.PropsDirtyTab
import Verif.PropsDirtyHead

/-!
# Instances: the theorems about files and about memory applied to concrete calls
-/

namespace Flbwt

/-! ## Files -/

/-- The file that represents "banana": row 4 in eight bytes, then "annbaa". -/
theorem banana_file : FileFormat banana [0, 0, 0, 0, 0, 0, 0, 4, 97, 110, 110, 98, 97, 97] :=
  ⟨_, 4, banana_bwt, by decide +kernel⟩

/-- C07: the bytes of the output, and the input is as before -/
example : ∃ s', bwtFile niceWorld niceHost "in" "out" niceFiles = (.ok (), s') ∧
    s'.files "out" = some [0, 0, 0, 0, 0, 0, 0, 4, 97, 110, 110, 98, 97, 97] ∧ s'.files "in" = some banana := by
  obtain ⟨b, s', e, h1, h2, h3⟩ := C07_file_format (out := "out") nice_call rfl nice_takes
  exact ⟨s', e, by rw [h2, h1.unique banana_file], h3 "in" (by decide)⟩

/-- C08: the same contents under two names, in different memory -/
example : (bwtFile niceWorld niceHost "in" "out" niceFiles).2.files "out" =
    (bwtFile { niceWorld with bj := fun i => i } niceHost "x" "y" ⟨fun f => if f = "x" then some banana else none, 5, 5⟩).2.files "y" :=
  (C08_injective (out := "out") (out' := "y") nice_call rfl nice_takes
    (w' := { niceWorld with bj := fun i => i }) (h' := niceHost) (inp' := "x")
    (s₂ := ⟨fun f => if f = "x" then some banana else none, 5, 5⟩) (content' := banana)
    ⟨rfl, rfl, rfl, rfl, by decide, by decide, by decide, by decide, insSort_ok, lengthsSafe_short _ (by decide), by decide⟩ rfl nice_takes).2 rfl

/-- C09: no such file; no memory; an empty file -/
example : bwtFile niceWorld niceHost "nothing" "out" niceFiles = (.error (.throw .invalidArgument), niceFiles) :=
  C09_no_input _ _ _ _ _ (Or.inl rfl)
example : bwtFile niceWorld { niceHost with mallocOk := fun k => decide (k < 7) } "in" "out" niceFiles =
    (.error (.throw .runtimeError), niceFiles) := C09_no_memory (content := banana) _ _ _ _ _ rfl rfl rfl
example : ∃ s', bwtFile niceWorld niceHost "in" "out" ⟨fun f => if f = "in" then some [] else none, 0, 0⟩ =
    (.error (.throw .runtimeError), s') ∧ s'.files = fun f => if f = "in" then some [] else none :=
  C09_nothing_read (content := []) _ _ _ _ _ rfl rfl (Or.inl rfl)

/-- C37 -/
example : (bwtFile niceWorld niceHost "in" "out" niceFiles).2.files "in" = some banana :=
  (C37_only_output_changes niceWorld niceHost "in" "out" niceFiles "in" (by decide)).trans rfl

/-- C40: room for ten bytes -/
example : ∃ s', bwtFile niceWorld { niceHost with accept := fun len k => min k (10 - len) } "in" "out" niceFiles = (.ok (), s') ∧
    s'.files "out" = some [0, 0, 0, 0, 0, 0, 0, 4, 97, 110] := by
  obtain ⟨b, s', e, h1, h2⟩ := C40_full_disk_undetected (w := niceWorld) (h := { niceHost with accept := fun len k => min k (10 - len) })
    (inp := "in") (out := "out") (s := niceFiles) (content := banana)
    ⟨rfl, rfl, rfl, rfl, by decide, by decide, by decide, by decide, insSort_ok, lengthsSafe_short _ (by decide), by decide⟩ rfl 10
    (fun _ _ => rfl)
  exact ⟨s', e, by rw [h2, h1.unique banana_file]; rfl⟩

/-- C41 -/
example : ∃ s', bwtFile niceWorld niceHost "in" "out" niceFiles = (.ok (), s') ∧ s'.streams = 0 ∧ s'.blocks = 0 :=
  C41_no_leak (out := "out") nice_call rfl
example : bwtFile niceWorld { niceHost with readMax := 0 } "in" "out" niceFiles =
    (.error (.throw .runtimeError), { niceFiles with streams := 0 + 1, blocks := 0 + 1 }) :=
  C41_leak_on_read_failure (content := banana) _ _ _ _ _ rfl rfl (Or.inr rfl) rfl
example : bwtFile niceWorld { niceHost with mayWrite := fun _ => false } "in" "out" niceFiles =
    (.error (.throw .invalidArgument), { niceFiles with blocks := 0 + 2 }) :=
  C41_leak_on_output_failure (content := banana)
    ⟨rfl, rfl, rfl, rfl, by decide, by decide, by decide, by decide, insSort_ok, lengthsSafe_short _ (by decide), by decide⟩ rfl

/-- C42: a file of two bytes -/
example : ∃ s', bwtFile niceWorld niceHost "in" "out" ⟨fun f => if f = "in" then some [97, 98] else none, 0, 0⟩ =
    (.error (.ub .nullDeref), s') ∧ s'.files = fun f => if f = "in" then some [97, 98] else none :=
  C42_short_file (content := [97, 98]) _ _ _ _ _ rfl rfl rfl rfl (by decide) (by decide) (by decide)

/-- C43 -/
example : ∃ s', exampleMain niceWorld niceHost ["bwt", "in", "out"] niceFiles = (.ok 0, s') ∧
    s'.files "out" = some [0, 0, 0, 0, 0, 0, 0, 4, 97, 110, 110, 98, 97, 97] := by
  obtain ⟨b, s', e, h1, h2⟩ := C43_example_program (out := "out") nice_call rfl nice_takes "bwt"
  exact ⟨s', e, by rw [h2, h1.unique banana_file]⟩
example : exampleMain niceWorld niceHost ["bwt", "in"] niceFiles = (.ok (-1), niceFiles) := C43_example_usage _ _ _ _ (by decide)

/-- C57, C58 -/
example : (∃ s', bwtFileH niceWorld niceHost "in" "out" niceState = (.ok (), s') ∧ s'.heap.peak ≤ 70600462) := by
  obtain ⟨b, s', e, _⟩ := C57_unlimited (out := "out") (niceH_call niceState rfl) rfl nice_takes (fun _ _ => rfl)
  exact ⟨s', e, Nat.le_trans (C57_linear_memory (niceH_call niceState rfl) e) (by decide)⟩
/-- whatever is refused, the output file is the old one, empty or complete -/
example (av : Nat → Blk → Bool) :
    (bwtFileH niceWorld niceHost "in" "out" { niceState with heap := { niceState.heap with av := av } }).2.files "out" ∈
      [some [1, 2, 3], some [], some [0, 0, 0, 0, 0, 0, 0, 4, 97, 110, 110, 98, 97, 97]] := by
  rcases C57_file_every_allocation_failure (out := "out") (niceH_call { niceState with heap := { niceState.heap with av := av } } rfl) rfl
    nice_takes with ⟨b, s', e, hb, h, _⟩ | ⟨x, s', e, h, _⟩ | ⟨s', e, h, _⟩
  · rw [e]; simp only; rw [h, hb.unique banana_file]; simp
  · rw [e]; simp only; rw [h]; simp [niceState, niceFiles]
  · rw [e]; simp only; rw [h]; simp
/-- at every moment the output is the old one or a prefix of the new one -/
example : ∀ x ∈ (bwtFileH niceWorld niceHost "in" "out" niceState).2.hist, x = niceFiles.files ∨
    (x "in" = some banana ∧ ∃ k, x "out" = some ([0, 0, 0, 0, 0, 0, 0, 4, 97, 110, 110, 98, 97, 97].take k)) := by
  obtain ⟨b, hb, h⟩ := C58_crash_points (out := "out") (niceH_call niceState rfl) nice_takes
  rw [hb.unique banana_file] at h
  intro x hx
  rcases h x hx with h | ⟨h1, k, _, h2⟩
  · exact Or.inl (by simpa [niceState] using h)
  · exact Or.inr ⟨(h1 "in" (by decide)).trans rfl, k, h2⟩
example : decodeFile [0, 0, 0, 0, 0, 0, 0, 4, 97, 110, 110] ≠ banana :=
  C58_torn_file_decodes_wrong (k := 11) banana_file (by decide) (by decide)
example : (bwtFileH niceWorld niceHost "in" "out" niceState).2.files "in" = some banana :=
  ((C58_other_files_never_touched niceWorld niceHost "in" "out" niceState).1 "in" (by decide)).trans rfl

/-- C77: five times in place -/
example : ∃ bytes s', runCalls (List.replicate 5 (zeroWorld, niceHost, "in", "in")) niceFiles = (.ok (), s') ∧ s'.files "in" = some bytes ∧
    bytes.length = 46 ∧ decodeFile (decodeFile (decodeFile (decodeFile (decodeFile bytes)))) = banana := by
  obtain ⟨b, s', e, h1, h2, h3, _⟩ := C77_in_place zeroWorld niceHost kind_nice "in" 5 niceFiles banana rfl
    (by
      intro f c hc
      unfold niceFiles at hc
      simp only at hc
      split at hc
      · injection hc with hc; subst hc; decide
      · split at hc
        · injection hc with hc; subst hc; decide
        · cases hc) (by decide) (by decide)
  exact ⟨b, s', e, h1, h2, h3⟩

/-- C80 for the file -/
example : ∃ bytes st', bwtFile niceWorld niceHost "in" "out" niceFiles = (.ok (), st') ∧ st'.files "out" = some bytes ∧
    (backwardSearch 6 (fun r => if r < fromBigEndian (bytes.take 8) then bytes.getD (8 + r) 0 else bytes.getD (8 + r - 1) 0)
      (fromBigEndian (bytes.take 8)) [97, 110, 97]).2 =
    (backwardSearch 6 (fun r => if r < fromBigEndian (bytes.take 8) then bytes.getD (8 + r) 0 else bytes.getD (8 + r - 1) 0)
      (fromBigEndian (bytes.take 8)) [97, 110, 97]).1 + 2 := by
  obtain ⟨b, s', e, h1, h2⟩ := C80_file (out := "out") nice_call rfl nice_takes
  exact ⟨b, s', e, h1, (h2 [97, 110, 97]).trans (by rw [show occurrences banana [97, 110, 97] = 2 by decide +kernel]; rfl)⟩

/-- C90: the size reported is 8, six bytes are there -/
example : ∃ bytes s', bwtFile niceWorld { niceHost with tell := fun _ => 8 } "in" "out" niceFiles = (.ok (), s') ∧
    s'.files "out" = some bytes ∧ decodeFile bytes = [98, 97, 110, 97, 110, 97, 7, 7] := by
  obtain ⟨b, s', e, h1, _, h2, _⟩ := C90_size_is_trusted (w := niceWorld) (h := { niceHost with tell := fun _ => 8 }) (inp := "in") (out := "out")
    (s := niceFiles) (content := banana) (n := 8)
    ⟨rfl, rfl, rfl, rfl, by decide, by decide, by decide, by decide, insSort_ok, by decide⟩ rfl nice_takes 6 (by decide) [7, 7] rfl (by decide)
    (lengthsSafe_short _ (by decide))
  exact ⟨b, s', e, h1, h2⟩

end Flbwt
