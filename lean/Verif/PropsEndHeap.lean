import Verif.PropsHeap
import Verif.PropsAnyEnd

/-!
# C78: memory of a call on a string that is followed by an arbitrary byte

C47, C48 and C50 assume that the byte after the string is not larger than the bytes of the string. What they say about
memory does not depend on that.
-/

namespace Flbwt

section
variable {T : Mem Nat} {s : List Nat}

theorem bwtStringH_outcome_any (w : World) (g : AnyEnd w.junk w.sorter T s) (freeT : Bool) (h : Heap) (ht : TextOwned freeT T h) :
    Outcome w T s.length freeT h (bwtStringH w (some T) s.length freeT h) := by
  have h3 := g.len3
  have I := g.mem.input g.len3 g.len57 g.byte g.tbyte
  have hL := g.mem.lenOK (by omega) g.room g.safe
  obtain ⟨r, e, _⟩ := bwtString_any w g freeT
  unfold bwtStringH
  simp only [bwtString] at e ⊢
  rw [if_neg (by omega)] at e ⊢
  exact bwtIsH_outcome w I hL g.sort freeT ⟨r, e⟩ h ht

/-- **C78** whatever byte follows the string and wherever memory runs out: the call returns what it returns with unlimited
memory, no request was refused and exactly the result was added to the heap (and the text removed if the caller asked for
it); or a request was refused and the call ends by `std::bad_alloc` or a null dereference. No block is released that is not
live. -/
theorem C78_any_terminator_memory (w : World) (g : AnyEnd w.junk w.sorter T s) (freeT : Bool) (h : Heap)
    (ht : TextOwned freeT T h) :
    (∃ r T' h', bwtStringH w (some T) s.length freeT h = (.ok (some r, T'), h') ∧
      bwtString w (some T) s.length freeT = .ok (some r, T') ∧ h'.failed = h.failed ∧ OnlyResultAdded freeT T s.length h h' ∧
      h'.peak ≤ max h.peak (h.total + 58 * s.length + 70600000)) ∨
    (∃ e h', bwtStringH w (some T) s.length freeT h = (.error e, h') ∧ (e = .badAlloc ∨ e = .prog (.ub .nullDeref)) ∧
      h.failed < h'.failed ∧ ∃ k b, h.av k b = false) := by
  have o := bwtStringH_outcome_any w g freeT h ht
  have e : bwtString w (some T) s.length freeT = bwtIs w T s.length freeT := by
    have h3 := g.len3
    simp only [bwtString]
    rw [if_neg (by omega)]
  rw [e]
  revert o
  rcases bwtStringH w (some T) s.length freeT h with ⟨x, h'⟩
  intro o
  cases o with
  | first c => exact Or.inr ⟨_, _, rfl, Or.inl rfl, by simp [Heap.refused], _, _, c⟩
  | front e h' he hf why => obtain ⟨k, b, _, c⟩ := why; exact Or.inr ⟨_, _, rfl, he, hf, k, b, c⟩
  | back e h' he hf why => obtain ⟨k, b, _, c⟩ := why; exact Or.inr ⟨_, _, rfl, he, hf, k, b, c⟩
  | done r h' hr hf has sa av => exact Or.inl ⟨r, _, h', rfl, hr, hf, onlyResult_of_has ht has, has.2⟩

/-- "babab" followed by 'c', the suffix array refused -/
example (w : World) (hs : w.sorter = insSort) (hj : w.junk = ⟨fun i => 2 * i + 1, 40000000⟩) (h : Heap) :
    (∃ r T' h', bwtStringH w (some bababc) 5 false h = (.ok (some r, T'), h') ∧
      bwtString w (some bababc) 5 false = .ok (some r, T') ∧ h'.failed = h.failed ∧ OnlyResultAdded false bababc 5 h h' ∧
      h'.peak ≤ max h.peak (h.total + 58 * 5 + 70600000)) ∨
    (∃ e h', bwtStringH w (some bababc) 5 false h = (.error e, h') ∧ (e = .badAlloc ∨ e = .prog (.ub .nullDeref)) ∧
      h.failed < h'.failed ∧ ∃ k b, h.av k b = false) :=
  C78_any_terminator_memory w (by rw [hs, hj]; exact bababc_anyEnd) false h (fun c => by cases c)

end

end Flbwt
