import Verif.Front
import Verif.Sais

/-!
# Model of `bwt_is`, `bwt_string` (src/flbwt.cpp:110-313)
-/

namespace Flbwt

open SaStore

/-- All values that C++ leaves unspecified: contents of fresh memory, the result of the undefined shift in `BIT_MASK`,
and the implementation of `std::sort`. src/flbwt.cpp:120-313 and the functions called there. -/
structure World where
  /-- fresh bytes of the hash table buffer (`realloc`) -/
  junk : Fresh
  /-- fresh pointer array of `sort_LMS_strings` -/
  pj : Nat → Nat
  /-- fresh packed array -/
  tj : Nat → BitVec 64
  /-- fresh suffix array -/
  aj : Nat → BitVec 64
  /-- blocks allocated while suffix sorting -/
  cj : Nat → Nat → BitVec 64
  /-- queue blocks -/
  qj : Nat → Nat → Nat → Nat → BitVec 64
  /-- fresh `BWT` array -/
  bj : Nat → Nat
  /-- undefined shift -/
  sj : BitVec 64
  /-- `std::sort` -/
  sorter : Sorter

section
variable {S : Type} [SaStore S]

/-- `SA[i] = v`; a value that does not fit is the fault `overflow` (the code would keep the low bits). src/flbwt.cpp:120-313. -/
def putC (sa : S) (i : Nat) (v : Int) : M S := if Fit S v then .ok (put sa i v) else .error (.ub .overflow)

/-- `++SA[i]` (src/flbwt.cpp:170-171, 198-202, 229-233, 261-265, 291-292) -/
def incEntries (cnt : Nat) (sa : S) : M S :=
  loopUp 0 cnt sa fun i sa =>
    if i < size sa then putC sa i (get sa i + 1) else .error (.ub .outOfBounds)

/-- `SA[i] = first_char(S[T1[SA[i] - 1]]) + length - 1 - bwp_base`
(src/flbwt.cpp:173-180, 204-211, 235-242, 267-274, 294-301) -/
def toPointers (sj : BitVec 64) (buf : Mem Nat) (base : Int) (s : Mem Nat) (T1 : PackedArray) (cnt : Nat) (sa : S) : M S :=
  loopUp 0 cnt sa fun i sa =>
    if i < size sa then
      if 1 ≤ get sa i then do
        let v ← T1.getValue sj (get sa i - 1).toNat
        let q ← s.rd v.toNat
        let l ← HashTable.getLength buf q
        let fc ← HashTable.getFirstCharacterPointer buf q
        putC sa i ((fc : Int) + l - 1 - base)
      else .error (.ub .outOfBounds)
    else .error (.ub .outOfBounds)

/-- One branch of `bwt_is` (src/flbwt.cpp:162-188, 189-219, 220-250, 251-282, 283-309); the five branches are the same
program over the five integer representations. -/
def branch (S : Type) [SaStore S] (w : World) (s : Mem Nat) (T1 : PackedArray) (ht : HashTable) (ct : Container) :
    M BwtResult := do
  let sa : S := fresh (ct.numSubs + 2) w.aj
  let st ← sais w.cj 64 { txt := .packed T1.arr, cs := T1.bits, sj := w.sj } 0 (ct.numSubs + 1) (ct.numUnique + 2)
    (⟨sa, fresh 0 (fun _ => 0)⟩ : St S)
  let sa ← incEntries (ct.numSubs + 1) st.sa
  let sa ← toPointers w.sj ht.buf ct.bwpBase s T1 (ct.numSubs + 1) sa
  induceBwt w.qj w.bj w.sj (ct.n + 2) ht.buf sa ct

end

/-- The part of `bwt_is` after `T1` was built (src/flbwt.cpp:138-313): the selection of the integer width. The result
`none` is the null pointer (no branch was taken). `T` is not used any more. -/
def finish (w : World) (s : Mem Nat) (T1 : PackedArray) (ct : Container) : M (Option BwtResult) := do
  match ct.hashtable with
  | none => .error (.ub .nullDeref)
  | some ht => do
    let total := ct.numSubs + 2
    let maxValue := if ct.saMax < total then total else ct.saMax
    let bits ← positionOfMsb maxValue
    if bits < 32 then some <$> branch S32 w s T1 ht ct
    else if bits < 40 then some <$> branch S40 w s T1 ht ct
    else if bits < 48 then some <$> branch S48 w s T1 ht ct
    else if bits < 56 then some <$> branch S56 w s T1 ht ct
    else if bits < 64 then some <$> branch S64 w s T1 ht ct
    else .ok none

/-- `free(T); T = NULL` if the caller allows it (src/flbwt.cpp:132-136) -/
def release (freeT : Bool) (T : Mem Nat) : Option (Mem Nat) := if freeT then none else some T

/-- `bwt_is` (src/flbwt.cpp:120-313). Result: the returned pointer and the block `T` (`none` = released). -/
def bwtIs (w : World) (T : Mem Nat) (n : Nat) (freeT : Bool) : M (Option BwtResult × Option (Mem Nat)) := do
  let ct ← extractLMS w.junk T n
  let r ← sortLMS w.sorter w.pj w.junk T ct
  let T1 ← createShortened w.tj w.sj T n r.2
  let T := release freeT T
  let b ← finish w r.1 T1 r.2
  .ok (b, T)

/-- `bwt_string` (src/flbwt.cpp:110-118); the null pointer is `none`. -/
def bwtString (w : World) (T : Option (Mem Nat)) (n : Nat) (freeT : Bool) : M (Option BwtResult × Option (Mem Nat)) :=
  match T with
  | none => .error (.throw .invalidArgument)
  | some T => if n = 0 then .error (.throw .invalidArgument) else bwtIs w T n freeT

end Flbwt
