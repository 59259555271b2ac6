import Verif.PropsTop

/-!
# Property C55: no value is truncated

The model keeps the value a statement wants to store and turns a store that does not fit the 32/40/48/56/64 bit entry into
the fault `overflow`. The same holds for `++SA[i]` and for the pointers `bwt_is` writes into `SA`.
-/

namespace Flbwt

open SaStore

/-- **C55** No call of `bwt_string` truncates a value: the integer width chosen by `bwt_is` is large enough for every
value that is stored in the array, in the bucket arrays and in the recursive calls of the suffix sort. -/
theorem C55_bwt_string_never_truncates {T : Mem Nat} {s : List Nat} (w : World) (g : GoodCall w.junk w.sorter T s)
    (freeT : Bool) : bwtString w (some T) s.length freeT ≠ .error (.ub .overflow) := by
  obtain ⟨r, e, _⟩ := bwtString_good w g freeT
  rw [e]; exact fun h => nomatch h

/-- **C55** No suffix sort truncates a value, as long as the length and the alphabet size fit a (positive) entry: any
text, any workspace, any contents of memory. -/
theorem C55_sais_never_truncates {S : Type} [LawfulSaStore S] (junk : Nat → Nat → BitVec 64) (sj : BitVec 64)
    (pa : PackedArray) (sa : S) (fs k fuel : Nat) (text : List Nat) (hcs : pa.bits ≠ width S) (htext : HoldsText sj pa text)
    (hn : text ≠ []) (hnw : text.length < 2 ^ (width S - 1)) (hkw : k ≤ 2 ^ (width S - 1)) (hT : ∀ c ∈ text, c < k)
    (hsz : text.length + fs ≤ size sa) (hfuel : text.length < 2 ^ fuel) :
    saisCall junk sj pa sa fs text.length k fuel ≠ .error (.ub .overflow) := by
  obtain ⟨s', e, _⟩ := Tot_iff.1 (saisCall_tot junk sj pa sa fs k fuel text hcs htext hn hnw hkw hT hsz hfuel)
  rw [e]; exact fun h => nomatch h

/-- The fault is raised exactly by the values outside the range of the entry: a store of `v` into `SA[i]`, `i` inside the
array, gives it iff `v` is not between `-2^(w-1)` and `2^(w-1) - 1`. -/
theorem C55_store_truncates_iff {S : Type} [SaStore S] (s : St S) (i : Nat) (v : Int) (hi : i < size s.sa) :
    s.st (.sa 0) (i : Int) v = .error (.ub .overflow) ↔ ¬ (-(2 : Int) ^ (width S - 1) ≤ v ∧ v < (2 : Int) ^ (width S - 1)) := by
  show _ ↔ ¬ Fit S v
  unfold St.st
  constructor
  · intro h hf
    rw [if_pos hf] at h
    simp only at h
    rw [if_pos ⟨by omega, by omega⟩] at h
    exact nomatch h
  · intro h
    rw [if_neg h]

/-- `++SA[i]` on the largest 32 bit value is the fault -/
example : incEntries 1 (put (fresh 1 (fun _ => 0) : S32) 0 (2 ^ 31 - 1)) = .error (.ub .overflow) := rfl

example (w : World) (h : w.junk = ⟨fun i => 2 * i + 1, 40000000⟩) (hs : w.sorter = insSort) :
    bwtString w (some (cString banana)) 6 true ≠ .error (.ub .overflow) :=
  C55_bwt_string_never_truncates w (by rw [h, hs]; exact banana_good) true

example : saisCall (fun _ _ => 5) 0 demoPacked (⟨⟨5, fun _ => 77⟩⟩ : S32) 0 5 3 31 ≠ .error (.ub .overflow) :=
  C55_sais_never_truncates _ 0 demoPacked (⟨⟨5, fun _ => 77⟩⟩ : S32) 0 3 31 [2, 1, 2, 1, 0] (by decide) demo_holds (by decide)
    (by decide) (by decide) (by decide) (by decide) (by decide)

end Flbwt
