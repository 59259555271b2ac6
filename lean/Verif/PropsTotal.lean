import Verif.PropsAnyEnd
import Verif.PropsTerm

/-!
# Properties C35 and C36 for every argument

`C35_every_call` puts together what the model says about each kind of argument: there is no text, no length and no size of the
block for which `bwt_string` does not terminate.
-/

namespace Flbwt

open HashTable (ok_bind)

/-- **C36** a block smaller than `n` bytes is read out of bounds too. -/
theorem C36_block_too_small (w : World) (T : Mem Nat) (n : Nat) (h3 : 3 ≤ n) (hT : T.size < n) (freeT : Bool) (h57 : n < 2 ^ 57) :
    bwtString w (some T) n freeT = .error (.ub .outOfBounds) := by
  suffices h : ErrIn Oob (extractLMS w.junk T n) (fun _ => False) by
    simp only [bwtString]
    rw [if_neg (by omega)]
    unfold bwtIs
    cases hb : extractLMS w.junk T n with
    | ok a => rw [hb] at h; exact h.elim
    | error e => rw [hb] at h; rw [show e = .ub .outOfBounds from h]; rfl
  unfold extractLMS
  simp only
  rw [if_neg (by omega)]
  refine (HashTable.new_tab 67777 n (by omega) (by omega)).errIn.bind ?_
  rintro ht -
  refine bump_size.bind (fun M hM => ?_)
  exact oobRd.bind (fun c h => by omega)

/-- "banana", of which the block has only four bytes -/
example (w : World) : bwtString w (some ⟨4, fun i => banana.getD i 0⟩) 6 true = .error (.ub .outOfBounds) :=
  C36_block_too_small w ⟨4, fun i => banana.getD i 0⟩ 6 (by decide) (by decide) true (by decide)

/-- The first `n` bytes of the block `T` -/
def firstBytes (T : Mem Nat) (n : Nat) : List Nat := (List.range n).map T.data

/-- **C35** What `bwt_string` does with every pointer and every length below 2^57, whatever the block contains, however large it
is and whatever follows the text: it throws `invalid_argument` (no block, or length 0), dereferences NULL (length 1 or 2),
accesses memory out of bounds (the block has at most `n` bytes), or returns. The hypotheses are those of every theorem about the
machine: the bytes are bytes, `realloc` does not fail, `std::sort` sorts, and the memory it hands out does not damage the
lengths (C18, C91). -/
theorem C35_every_call (w : World) (T : Option (Mem Nat)) (n : Nat) (freeT : Bool) (h57 : n < 2 ^ 57)
    (hb : ∀ M, T = some M → ∀ i, i ≤ n → M.data i < 256) (hS : SortsOK w.sorter) (hroom : enoughFor n ≤ w.junk.lim)
    (hsafe : ∀ M, T = some M → LengthsSafe w.junk (firstBytes M n)) :
    (T = none ∨ n = 0) ∧ bwtString w T n freeT = .error (.throw .invalidArgument) ∨
    (∃ M, T = some M) ∧ (n = 1 ∨ n = 2) ∧ bwtString w T n freeT = .error (.ub .nullDeref) ∨
    (∃ M, T = some M ∧ M.size ≤ n) ∧ 3 ≤ n ∧ bwtString w T n freeT = .error (.ub .outOfBounds) ∨
    ∃ M r, T = some M ∧ n < M.size ∧ 3 ≤ n ∧ bwtString w T n freeT = .ok (some r, release freeT M) := by
  cases T with
  | none => left; exact ⟨Or.inl rfl, by simp [bwtString]⟩
  | some M =>
    by_cases h0 : n = 0
    · left; exact ⟨Or.inr h0, by simp [bwtString, h0]⟩
    by_cases h2 : n ≤ 2
    · right; left; exact ⟨⟨M, rfl⟩, by omega, C04_short_input_null_deref w M n freeT (by omega) h2⟩
    by_cases hs : M.size ≤ n
    · right; right; left
      refine ⟨⟨M, rfl, hs⟩, by omega, ?_⟩
      rcases Nat.lt_or_eq_of_le hs with hs | hs
      · exact C36_block_too_small w M n (by omega) hs freeT h57
      · subst hs
        exact C36_terminator_required w hS M (by omega) (by omega) (by unfold enoughFor at hroom; omega) freeT
    · right; right; right
      have hl : (firstBytes M n).length = n := by simp [firstBytes]
      have g : AnyEnd w.junk w.sorter M (firstBytes M n) := by
        refine ⟨by omega, by omega, ?_, ⟨by omega, ?_⟩, by rw [hl]; exact hb M rfl n (Nat.le_refl n), hS, hsafe M rfl, by rw [hl]; exact hroom⟩
        · intro c hc
          obtain ⟨i, hi, rfl⟩ := List.mem_map.1 hc
          exact hb M rfl i (by have := List.mem_range.1 hi; omega)
        · intro i hi
          simp [firstBytes]
      obtain ⟨r, e, _⟩ := C78_any_terminator_is_safe w g freeT
      rw [hl] at e
      exact ⟨M, r, rfl, by omega, by omega, e⟩

/-- **C35** in particular every such call terminates. -/
theorem C35_every_call_terminates (w : World) (T : Option (Mem Nat)) (n : Nat) (freeT : Bool) (h57 : n < 2 ^ 57)
    (hb : ∀ M, T = some M → ∀ i, i ≤ n → M.data i < 256) (hS : SortsOK w.sorter) (hroom : enoughFor n ≤ w.junk.lim)
    (hsafe : ∀ M, T = some M → LengthsSafe w.junk (firstBytes M n)) : bwtString w T n freeT ≠ .error (.ub .diverge) := by
  rcases C35_every_call w T n freeT h57 hb hS hroom hsafe with ⟨_, e⟩ | ⟨_, _, e⟩ | ⟨_, _, e⟩ | ⟨M, r, _, _, _, e⟩ <;> rw [e] <;> simp

/-- "babab" followed by 'c' in the block of the example of C78, with the length 5 and with every other length up to 255 -/
example (w : World) (hs : w.sorter = insSort) (hj : w.junk = ⟨fun _ => 0, 40000000⟩) (n : Nat) (hn : n ≤ 255) :
    bwtString w (some bababc) n false ≠ .error (.ub .diverge) := by
  refine C35_every_call_terminates w (some bababc) n false (by omega) ?_ (by rw [hs]; exact insSort_ok) ?_ ?_
  · rintro M ⟨⟩ i hi
    show (babab ++ [99]).getD i 0 < 256
    rw [List.getD_eq_getElem?_getD]
    cases h : (babab ++ [99])[i]? with
    | none => decide
    | some c => exact (by decide : ∀ c ∈ babab ++ [99], c < 256) c (List.mem_of_getElem? h)
  · rw [hj]; unfold enoughFor; dsimp only; omega
  · rintro M ⟨⟩; exact Or.inl (fun i => by rw [hj]; rfl)

end Flbwt
