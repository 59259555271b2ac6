import Verif.Instances4
import Verif.PropsExact
import Verif.PropsCopy
import Verif.PropsHang
import Verif.PropsDirtyHead
import Verif.PropsDirty3
import Verif.PropsAnyEnd
import Verif.PropsFileFail

/-! # The theorems applied to concrete calls: recycled memory, pointers, other terminators -/

namespace Flbwt

/-- C45: 255 times "c" -/
example (w : World) (hS : SortsOK w.sorter) :
    bwtString { w with junk := ⟨fun _ => 255, 40000000⟩ } (some (cString (List.replicate 255 99))) 255 true = .error (.ub .outOfBounds) :=
  (C45_depends_on_memory w 1 99 (by omega) (by omega) (by norm_num) hS 40000000 (by decide) true).2

/-- C56: a string inserted in an empty table moves the buffer -/
example (junk : Fresh) (t t' : GTab) (r : Nat) (h : t.ht.bufsize < t'.ht.bufsize)
    (e : HashTable.insertStringP junk t (cString banana) 3 1 = .ok (t', r)) : (t.ptr 0).use t'.gen = .error .stale := by
  rcases C56_growing_moves junk t t' (cString banana) 3 1 r e with h1 | h1
  · omega
  · exact h1.2 0
example : ((HashTable.new 1 100).toOption.bind fun ht => ((HashTable.insertStringP ⟨fun _ => 7, 40000000⟩ ⟨ht, 0⟩ (cString banana) 3 1).toOption.map
    fun r => (r.1.gen, decide (ht.bufsize < r.1.ht.bufsize)))) = some (1, true) := by
  decide +kernel

/-- C63: "babab" followed by "c" -/
example : ∃ ct0 p ct ht T1 name, extractLMS ⟨fun i => 2 * i + 1, 40000000⟩ bababc 5 = .ok ct0 ∧
    sortLMS insSort (fun _ => 9) ⟨fun i => 2 * i + 1, 40000000⟩ bababc ct0 = .ok (p, ct) ∧ ct.hashtable = some ht ∧
    createShortened (fun _ => 5) 4 bababc 5 ct = .ok T1 ∧ NamedBy ht bababc babab name := by
  obtain ⟨ct0, p, ct, ht, T1, name, h1, h2, h3, h4, h5, _⟩ := C63_names_with_any_terminator bababc_anyEnd (fun _ => 9) (fun _ => 5) 4
  exact ⟨ct0, p, ct, ht, T1, name, h1, h2, h3, h4, h5⟩

/-- C68: the output of the first call is the input of the second -/
def chained : Fin 2 → Job := fun i =>
  if i.val = 0 then ⟨niceWorld, niceHost, "in", "c", banana⟩ else ⟨niceWorld, niceHost, "c", "a", [1, 2, 3]⟩

example : ∃ st, FReach chained niceStart st ∧ st.th 1 = .done (.error (.throw .runtimeError)) ∧ ∀ l, st.refused l = 0 :=
  C68_input_of_another (js := chained) (f0 := niceStart)
    (fun i => by
      have : i.val = 0 ∨ i.val = 1 := by omega
      unfold chained
      rcases this with h | h <;> rw [h] <;>
        exact ⟨rfl, by decide, by decide, by decide, insSort_ok, lengthsSafe_short _ (by decide), by decide⟩)
    0 1 (by decide) rfl

/-- C75: a file of two bytes -/
example (w : World) : ∃ s', bwtFile w niceHost "in" "out" { niceFiles with files := fun f => if f = "in" then some [98, 97] else none } =
      (.error (.ub .nullDeref), s') ∧ s'.files = fun f => if f = "in" then some [98, 97] else none :=
  C75_failed_transform niceHost "in" "out" _ w (content := [98, 97]) rfl rfl rfl rfl (by decide) (by decide) (by decide) _
    (fun T _ => C04_short_input_null_deref w T 2 true (by decide) (by decide))

/-- C94 -/
example (sj : BitVec 64) (k : Nat) : ∃ r, bwtStringFor k (bananaWorld sj) (some (cString banana)) 6 true = .ok (some r, none) ∧
    IsBWT banana r.bwt.data r.last := by
  obtain ⟨r, e, _, h2⟩ := bwtString_good (bananaWorld sj) (T := cString banana) (s := banana) banana_good true
  exact ⟨r, C94_more_steps k _ _ _ _ e, h2⟩

/-- C93: exact condition, a text that satisfies it and one that does not -/
example : ∀ w : World, SortsOK w.sorter → enoughFor 258 ≤ w.junk.lim →
    ∃ r T', bwtString w (some (cString viiText)) 258 true = .ok (some r, T') ∧ IsBWT viiText r.bwt.data r.last := by
  have hl := viiText_length
  have := (C93_exact (cString viiText) viiText (by omega) (by omega) (by decide +kernel) (cString_holds _) [256, 1]
    (by decide) viiText_star true).1 ⟨by rw [hl]; exact viiText_safe, viiText_head⟩
  rwa [hl] at this

end Flbwt
