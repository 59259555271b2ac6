import Verif.PropsAnyEnd

/-!
# Property C81: the requirements of `std::sort` are met

`std::sort` has undefined behaviour unless the comparison it gets is a strict weak ordering of the elements of the range. The
other theorems assume that the sorting procedure sorts under that condition (`SortsOK`); here the procedure is wrapped so that
it *refuses* every range and comparison that do not meet the condition.
-/

namespace Flbwt

/-- `std::sort` with its precondition checked: unless the comparison, applied to elements of the range, always returns
(without undefined behaviour or exception) the value of a strict weak ordering, the behaviour is undefined. -/
noncomputable def strictSort (sorter : Sorter) : Sorter := fun cmp l =>
  open Classical in
  if ∃ lt : Nat → Nat → Bool, (∀ a ∈ l, ∀ b ∈ l, cmp a b = .ok (lt a b)) ∧
      (∀ a ∈ l, lt a a = false) ∧
      (∀ a ∈ l, ∀ b ∈ l, ∀ c ∈ l, lt a b = true → lt b c = true → lt a c = true) ∧
      (∀ a ∈ l, ∀ b ∈ l, ∀ c ∈ l, lt a b = false → lt b a = false → lt b c = false → lt c b = false →
        lt a c = false ∧ lt c a = false)
  then sorter cmp l else .error (.ub .outOfBounds)

theorem strictSort_ok {sorter : Sorter} (h : SortsOK sorter) : SortsOK (strictSort sorter) := by
  intro cmp lt l h1 h2
  unfold strictSort
  rw [if_pos ⟨lt, h1, h2.irrefl, h2.trans, fun a ha b hb c hc x1 x2 x3 x4 =>
    ⟨h2.incomp a ha b hb c hc x1 x3, h2.incomp c hc b hb a ha x4 x2⟩⟩]
  exact h cmp lt l h1 h2

section
variable {T : Mem Nat} {s : List Nat}

theorem GoodCall.strict {junk : Fresh} {sorter : Sorter} (g : GoodCall junk sorter T s) :
    GoodCall junk (strictSort sorter) T s :=
  { g with sort := strictSort_ok g.sort }

/-- **C81** `std::sort` is called within its contract: with the sort that refuses every comparison that is not a strict weak
ordering of the records, or that faults on two of them, the call ends as it does with the plain sort, and its result is the
transform. -/
theorem C81_sort_precondition (w : World) (g : GoodCall w.junk w.sorter T s) (freeT : Bool) :
    ∃ r, bwtString { w with sorter := strictSort w.sorter } (some T) s.length freeT = .ok (some r, release freeT T) ∧
      r.bwt.size = s.length + 1 ∧ IsBWT s r.bwt.data r.last :=
  bwtString_good { w with sorter := strictSort w.sorter } g.strict freeT

/-- "banana" -/
example (w : World) (hs : w.sorter = insSort) (hj : w.junk = ⟨fun i => 2 * i + 1, 40000000⟩) :
    ∃ r, bwtString { w with sorter := strictSort w.sorter } (some (cString banana)) 6 true =
        .ok (some r, release true (cString banana)) ∧ r.bwt.size = 7 ∧ IsBWT banana r.bwt.data r.last :=
  C81_sort_precondition w (by rw [hs, hj]; exact banana_good) true

/-- **C81** the same whatever byte follows the string: the records of the S* strings are ordered strictly and weakly even
where their order is not the order of the suffixes (C63). -/
theorem C81_sort_precondition_any_terminator (w : World) (g : AnyEnd w.junk w.sorter T s) (freeT : Bool) :
    ∃ r, bwtString { w with sorter := strictSort w.sorter } (some T) s.length freeT = .ok (some r, release freeT T) := by
  have g' : AnyEnd w.junk (strictSort w.sorter) T s := { g with sort := strictSort_ok g.sort }
  obtain ⟨r, e, _⟩ := C78_any_terminator_is_safe { w with sorter := strictSort w.sorter } g' freeT
  exact ⟨r, e⟩

/-- "babab" followed by 'c' -/
example (w : World) (hs : w.sorter = insSort) (hj : w.junk = ⟨fun i => 2 * i + 1, 40000000⟩) :
    ∃ r, bwtString { w with sorter := strictSort w.sorter } (some bababc) 5 true = .ok (some r, release true bababc) :=
  C81_sort_precondition_any_terminator w (by rw [hs, hj]; exact bababc_anyEnd) true

end

/-- A comparison that says "less" of equal elements is refused. -/
example (sorter : Sorter) : strictSort sorter (fun _ _ => .ok true) [3] = .error (.ub .outOfBounds) := by
  unfold strictSort
  refine if_neg ?_
  rintro ⟨lt, h1, h2, _⟩
  have a := h1 3 (by simp) 3 (by simp)
  have b := h2 3 (by simp)
  injection a with a
  rw [b] at a
  cases a

/-- A comparison that faults on two elements of the range is refused. -/
example (sorter : Sorter) : strictSort sorter (fun a _ => if a = 4 then .error (.ub .outOfBounds) else .ok false) [3, 4] =
    .error (.ub .outOfBounds) := by
  unfold strictSort
  refine if_neg ?_
  rintro ⟨lt, h1, _⟩
  have a := h1 4 (by simp) 3 (by simp)
  cases a

end Flbwt
