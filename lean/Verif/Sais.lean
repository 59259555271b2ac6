import Verif.Store

/-!
# Model of `src/sais32bit.cpp`, `sais40bit.cpp`, `sais48bit.cpp`, `sais56bit.cpp`, `sais64bit.cpp`

The five files are one program over five integer representations (class `SaStore`). Line numbers below refer to
`src/sais32bit.cpp`; the corresponding lines of the other files do the same through `set_XXbit_value` /
`get_XXbit_value`.

Arithmetic: sums of `uint64_t` locals wrap (`addU64`, `subU64`), conversions between `uint64_t` and `int64_t` wrap
(`toU64`, `toI64`), an `int64_t` sum that leaves the type is a fault (`addI64`), the 32-bit locals are wrapped to their
width, and storing a value that does not fit in an array is a fault. Simplification: loop counters, and the counters `m`
and `name` that change at most once per iteration of such a loop, are unbounded integers, and so is `fs + n - m * 2`,
a part of the size of an existing block.
-/

namespace Flbwt

variable {S : Type}

/-- Where the text is: the packed array (`T`, read by `get2`), an integer array inside the suffix array buffer
(`RA = SA + base`, used in recursive calls), or (first level only, not used by `bwt_string`) an integer array of the caller
(`T` as `uint32_t *` / `int64_t *`, resp. `TA_L`, `TA_M`, `TA_U`) whose elements have the given values.
`T` of src/sais32bit.cpp:38; in the recursive call `RA`, src/sais32bit.cpp (and `TA_L`, `TA_U` of src/sais40bit.cpp). -/
inductive Txt where
  | packed (arr : Mem (BitVec 64))
  | ptr (base : Nat)
  | ints (arr : Mem Nat)

/-- The immutable arguments `T` and `cs`; `sj` is the result of the undefined shift in `BIT_MASK`.
Parameters of the functions of src/sais32bit.cpp:43-352. -/
structure Env where
  txt : Txt
  cs : Nat
  sj : BitVec 64

/-- Mutable memory: the suffix array buffer and the counter block allocated with `new` (size 0 when none).
`SA` and `new int32_t[k]`, src/sais32bit.cpp:178-352. -/
structure St (S : Type) where
  sa : S
  hp : S

/-- Pointers `C`, `B`, `SA`, `RA`: into the suffix array buffer, or to the allocated block.
Parameters of the functions of src/sais32bit.cpp:43-352. -/
inductive Ptr where
  | sa (off : Nat)
  | hp
  deriving DecidableEq

section
variable [SaStore S]
open SaStore

/-- `p[i]`. Every load from `SA`, `C`, `B` in src/sais32bit.cpp. -/
def St.ld (s : St S) (p : Ptr) (i : Int) : M Int :=
  match p with
  | .sa off => if 0 ≤ (off : Int) + i ∧ ((off : Int) + i).toNat < size s.sa
      then .ok (get s.sa ((off : Int) + i).toNat) else .error (.ub .outOfBounds)
  | .hp => if 0 ≤ i ∧ i.toNat < size s.hp then .ok (get s.hp i.toNat) else .error (.ub .outOfBounds)

/-- the value fits the integer width of the array. The element types, include/sais32bit.hpp:24 and the other four headers. -/
def Fit (S : Type) [SaStore S] (v : Int) : Prop := -(2 : Int) ^ (width S - 1) ≤ v ∧ v < (2 : Int) ^ (width S - 1)

/-- Infrastructure: models no code. -/
instance (v : Int) : Decidable (Fit S v) := by unfold Fit; infer_instance

/-- `p[i] = v`. Storing a value that does not fit (the code would keep the low bits, or overflow in `++`/`--`) is the
fault `overflow`. Every store to `SA`, `C`, `B` in src/sais32bit.cpp. -/
def St.st (s : St S) (p : Ptr) (i : Int) (v : Int) : M (St S) :=
  if Fit S v then
    match p with
    | .sa off => if 0 ≤ (off : Int) + i ∧ ((off : Int) + i).toNat < size s.sa
        then .ok { s with sa := put s.sa ((off : Int) + i).toNat v } else .error (.ub .outOfBounds)
    | .hp => if 0 ≤ i ∧ i.toNat < size s.hp then .ok { s with hp := put s.hp i.toNat v }
        else .error (.ub .outOfBounds)
  else .error (.ub .overflow)

/-- Macro `chr(i)` (src/sais32bit.cpp:38). Interpreting the packed text as an integer array or the other way round is
the fault `typeConfusion`. `chr(-1)` on a packed text (only for `n = 0`: `chr(n - 1)`) reads entry 0; smaller arguments
(which do not occur) are a fault. -/
def chr (e : Env) (s : St S) (i : Int) : M Int :=
  if e.cs = width S then
    match e.txt with
    | .packed _ => .error (.ub .typeConfusion)
    | .ptr base => if 0 ≤ i ∧ base + i.toNat < size s.sa then .ok (getU s.sa (base + i.toNat))
        else .error (.ub .outOfBounds)
    | .ints arr => if 0 ≤ i then do let v ← arr.rd i.toNat; .ok v else .error (.ub .outOfBounds)
  else
    match e.txt with
    | .ptr _ => .error (.ub .typeConfusion)
    | .ints _ => .error (.ub .typeConfusion)
    | .packed arr => if -1 ≤ i then do let v ← getBits e.sj arr e.cs (i + 1).toNat; .ok v.toNat
        else .error (.ub .outOfBounds)

/-- assignment to a local variable of `induce_SA`. src/sais32bit.cpp:82-85. -/
def loc (S : Type) [SaStore S] (v : Int) : Int := (BitVec.ofInt (locBits S) v).toInt

/-- `(uint32_t)c1` resp. `(uint64_t)c1`. src/sais32bit.cpp:99. -/
def uloc (S : Type) [SaStore S] (v : Int) : Int := (BitVec.ofInt (locBits S) v).toNat

/-- `get_counts` (src/sais32bit.cpp:43-50) -/
def getCounts (e : Env) (C : Ptr) (n k : Nat) (s : St S) : M (St S) := do
  let s ← loopUp 0 k s fun i s => s.st C i 0
  loopUp 0 n s fun i s => do
    let c ← chr e s i
    let v ← s.ld C c
    s.st C c (v + 1)

/-- `get_buckets` (src/sais32bit.cpp:55-75) -/
def getBuckets (C B : Ptr) (k : Nat) (fin : Bool) (s : St S) : M (St S) := do
  let r ← loopUp 0 k ((0 : Nat), s) fun i (sum, s) => do
    let v ← s.ld C i
    let sum := addU64 sum (toU64 v)
    let s ← s.st B i (toI64 (if fin then sum else subU64 sum (toU64 v) : Nat))
    .ok (sum, s)
  .ok r.2

/-- Local state of `induce_SA`: `c1` and the offset `b - SA`. src/sais32bit.cpp:82-85. -/
structure Ind (S : Type) where
  s : St S
  c1 : Int
  b : Int

/-- `if (c0 != c1) { B[c1] = b - SA; c1 = c0; b = SA + B[c1]; }` (src/sais32bit.cpp:110-115, 139-144) -/
def switchBucket (B : Ptr) (x : Ind S) (c0 : Int) : M (Ind S) :=
  if c0 ≠ x.c1 then do
    let s ← x.s.st B x.c1 x.b
    let b ← s.ld B c0
    .ok ⟨s, c0, b⟩
  else .ok x

/-- `(0 < j) && (chr(j - 1) < (uint32_t)c1)` (src/sais32bit.cpp:99, 117) -/
def testL (e : Env) (x : Ind S) (j : Int) : M Bool :=
  if 0 < j then do
    let ch ← chr e x.s (j - 1)
    .ok (decide (ch < uloc S x.c1))
  else .ok false

/-- `*b++ = ((0 < j) && (chr(j - 1) < (uint32_t)c1)) ? ~j : j;` (src/sais32bit.cpp:99, 117) -/
def pushL (e : Env) (x : Ind S) (j : Int) : M (Ind S) := do
  let t ← testL e x j
  let s ← x.s.st (.sa 0) x.b (if t then -j - 1 else j)
  .ok { x with s := s, b := x.b + 1 }

/-- `(j == 0) || (chr(j - 1) > (uint32_t)c1)` (src/sais32bit.cpp:146) -/
def testS (e : Env) (x : Ind S) (j : Int) : M Bool :=
  if j = 0 then .ok true
  else do
    let ch ← chr e x.s (j - 1)
    .ok (decide (ch > uloc S x.c1))

/-- `*--b = ((j == 0) || (chr(j - 1) > (uint32_t)c1)) ? ~j : j;` (src/sais32bit.cpp:146) -/
def pushS (e : Env) (x : Ind S) (j : Int) : M (Ind S) := do
  let t ← testS e x j
  let s ← x.s.st (.sa 0) (x.b - 1) (if t then -j - 1 else j)
  .ok { x with s := s, b := x.b - 1 }

/-- loop body, first pass of `induce_SA` (src/sais32bit.cpp:103-118) -/
def induceBody1 (e : Env) (B : Ptr) (i : Nat) (x : Ind S) : M (Ind S) := do
  let j ← x.s.ld (.sa 0) i
  let s ← x.s.st (.sa 0) i (-j - 1)
  let x := { x with s := s }
  if 0 < j then do
    let j := j - 1
    let c0 ← chr e x.s j
    let x ← switchBucket B x (loc S c0)
    pushL e x j
  else .ok x

/-- loop body, second pass of `induce_SA` (src/sais32bit.cpp:133-151) -/
def induceBody2 (e : Env) (B : Ptr) (i : Nat) (x : Ind S) : M (Ind S) := do
  let j ← x.s.ld (.sa 0) i
  if 0 < j then do
    let j := j - 1
    let c0 ← chr e x.s j
    let x ← switchBucket B x (loc S c0)
    pushS e x j
  else do
    let s ← x.s.st (.sa 0) i (-j - 1)
    .ok { x with s := s }

/-- `if (C == B) get_counts(T, C, n, k, cs);` (src/sais32bit.cpp:88-91, 122-125) -/
def recount (e : Env) (C B : Ptr) (n k : Nat) (s : St S) : M (St S) :=
  if C = B then getCounts e C n k s else .ok s

/-- `induce_SA` (src/sais32bit.cpp:80-153) -/
def induceSA (e : Env) (C B : Ptr) (n k : Nat) (s : St S) : M (St S) := do
  let s ← recount e C B n k s
  let s ← getBuckets C B k false s
  let j : Int := loc S ((n : Int) - 1)
  let ch ← chr e s j
  let c1 := loc S ch
  let b ← s.ld B c1
  let x ← pushL e ⟨s, c1, b⟩ j
  let x ← loopUp 0 n x (induceBody1 e B)
  let s := x.s
  let s ← recount e C B n k s
  let s ← getBuckets C B k true s
  let b ← s.ld B 0
  let x ← loopDown n ⟨s, 0, b⟩ (induceBody2 e B)
  .ok x.s

/-- The three backward scans for LMS positions (src/sais32bit.cpp:189-204, 242-259, 306-318):
`c = 0; c1 = chr(n-1); for (i = n-2; i >= 0; --i, c1 = c0) { c0 = chr(i); if (c0 < c1 + c) c = 1; else if (c != 0)
{ act(i+1); c = 0; } }`. The action gets `i+1` and `c1`. -/
def lmsScan {τ : Type} (e : Env) (n : Nat) (s : St S) (t : τ) (act : Nat → Int → St S × τ → M (St S × τ)) :
    M (St S × τ) := do
  let c1 ← chr e s ((n : Int) - 1)
  let r ← loopDown (n - 1) ((0 : Int), toI64 c1, s, t) fun i (c, c1, s, t) => do
    let c0 ← chr e s i
    let c0 := toI64 c0
    let d ← addI64 c1 c
    if c0 < d then .ok (1, c0, s, t)
    else if c ≠ 0 then do
      let (s, t) ← act (i + 1) c1 (s, t)
      .ok (0, c0, s, t)
    else .ok (c, c0, s, t)
  .ok r.2.2

/-- `SA[--B[c]] = v` (src/sais32bit.cpp:199, 346) -/
def putEnd (B : Ptr) (c : Int) (v : Int) (s : St S) : M (St S) := do
  let idx ← s.ld B c
  let s ← s.st B c (idx - 1)
  s.st (.sa 0) (idx - 1) v

/-- `for (i = lo; i < n; ++i) SA[i] = 0;` (src/sais32bit.cpp:186-187, 238-239, 339-340) -/
def clearFrom (lo n : Nat) (s : St S) : M (St S) :=
  loopUp lo (n - lo) s fun i s => s.st (.sa 0) i 0

/-- placement of the pointers `C`, `B` (src/sais32bit.cpp:173-181, 325-333); `junk` = contents of the new block -/
def placeCounters (n k fs : Nat) (junk : Nat → BitVec 64) (s : St S) : Ptr × Ptr × St S :=
  if k ≤ fs then
    (.sa n, (if k ≤ fs - k then .sa (n + k) else .sa n), s)
  else (.hp, .hp, { s with hp := fresh k junk })

/-- `fs < k`, the condition of `if (fs < k) delete[] C;` (src/sais32bit.cpp:208, 351) -/
abbrev FreesCounters (k fs : Nat) : Prop := fs < k

/-- `if (fs < k) delete[] C;` (src/sais32bit.cpp:208-209, 351-352) -/
def freeCounters (k fs : Nat) (s : St S) : St S :=
  if FreesCounters k fs then { s with hp := fresh 0 (fun _ => 0) } else s

/-- the inner loop of the compaction (src/sais32bit.cpp:224-229): first `j ≥ p+1` with `chr(j) ≠ c0`, with `c1`;
`j = n` when there is none (then `c1` is the last character read, which does not matter). -/
def runEnd (e : Env) (n : Nat) (s : St S) (p : Nat) (c0 : Int) : M (Nat × Int) :=
  whileM (n + 1) (p + 1, c0) fun (j, c1) =>
    if j < n then do
      let c1 ← chr e s j
      let c1 := toI64 c1
      if c0 ≠ c1 then .ok (.inr (j, c1)) else .ok (.inl (j + 1, c1))
    else .ok (.inr (j, c1))

/-- compaction (src/sais32bit.cpp:212-235); returns `m` -/
def compact (e : Env) (n : Nat) (s : St S) : M (St S × Nat) :=
  loopUp 0 n (s, 0) fun i (s, m) => do
    let p ← s.ld (.sa 0) i
    if 0 < p then do
      let prev ← chr e s (p - 1)
      let c0 ← chr e s p
      let c0 := toI64 c0
      if loc S prev > c0 then do
        let (j, c1) ← runEnd e n s p.toNat c0
        if j < n ∧ c0 < c1 then do
          let s ← s.st (.sa 0) m p
          .ok (s, m + 1)
        else .ok (s, m)
      else .ok (s, m)
    else .ok (s, m)

/-- `for (j = 0; j < plen; ++j) if (chr(p + j) != chr(q + j)) break; if (j == plen) diff = 0;`
(src/sais32bit.cpp:274-281); the result is `true` when all are equal. -/
def sameBlock (e : Env) (s : St S) (p q : Int) (plen : Nat) : M Bool :=
  whileM (plen + 1) 0 fun j =>
    if j < plen then do
      let pj ← addI64 p j
      let a ← chr e s pj
      let qj ← addI64 q j
      let b ← chr e s qj
      if a ≠ b then .ok (.inr false) else .ok (.inl (j + 1))
    else .ok (.inr true)

/-- `diff = 1; if (plen == qlen) …` (src/sais32bit.cpp:270-282), negated -/
def sameAs (e : Env) (s : St S) (p q plen qlen : Int) : M Bool :=
  if plen = qlen then sameBlock e s p q plen.toNat else .ok false

/-- naming (src/sais32bit.cpp:262-292); returns `name`. State: `name, q, qlen`. -/
def nameSubstrings (e : Env) (n m : Nat) (s : St S) : M (St S × Nat) := do
  let r ← loopUp 0 m (s, (0 : Nat), (n : Int), (0 : Int)) fun i (s, name, q, qlen) => do
    let p ← s.ld (.sa 0) i
    let index ← addI64 m (p / 2)
    let plen ← s.ld (.sa 0) index
    let same ← sameAs e s p q plen qlen
    let (name, q, qlen) := if same then (name, q, qlen) else (name + 1, p, plen)
    let s ← s.st (.sa 0) index name
    .ok (s, name, q, qlen)
  .ok (r.1, r.2.1)

/-- `for (i = n-1, j = m-1; m <= i; --i) if (SA[i] != 0) RA[j--] = SA[i] - 1;` (src/sais32bit.cpp:298-302) -/
def gatherNames (n m ra : Nat) (s : St S) : M (St S) := do
  let r ← loopDown (n - m) (s, (m : Int) - 1) fun i' (s, j) => do
    let i := m + i'
    let v ← s.ld (.sa 0) i
    if nz s.sa i then do
      let s ← s.st (.sa ra) j (v - 1)
      .ok (s, j - 1)
    else .ok (s, j)
  .ok r.1

/-- `for (i = 0; i < m; ++i) SA[i] = RA[SA[i]];` (src/sais32bit.cpp:320-321) -/
def mapBack (m ra : Nat) (s : St S) : M (St S) :=
  loopUp 0 m s fun i s => do
    let v ← s.ld (.sa 0) i
    let w ← s.ld (.sa ra) v
    s.st (.sa 0) i w

/-- stage 1 up to naming (src/sais32bit.cpp:172-292); returns `m` and `name` -/
def stage1 (junk : Nat → BitVec 64) (e : Env) (fs n k : Nat) (s : St S) : M (St S × Nat × Nat) := do
  let (C, B, s) := placeCounters n k fs junk s
  let s ← getCounts e C n k s
  let s ← getBuckets C B k true s
  let s ← clearFrom 0 n s
  let (s, _) ← lmsScan e n s () fun i c1 (s, t) => do
    let s ← putEnd B c1 i s
    .ok (s, t)
  let s ← induceSA e C B n k s
  let s := freeCounters k fs s
  let (s, m) ← compact e n s
  let s ← clearFrom m n s
  let (s, _) ← lmsScan e n s (n : Int) fun i _ (s, j) => do
    let s ← s.st (.sa 0) (m + i / 2 : Nat) (j - i)
    .ok (s, (i : Int))
  let (s, name) ← nameSubstrings e n m s
  .ok (s, m, name)

/-- stage 3 (src/sais32bit.cpp:324-352) -/
def stage3 (junk : Nat → BitVec 64) (e : Env) (fs n k m : Nat) (s : St S) : M (St S) := do
  let (C, B, s) := placeCounters n k fs junk s
  let s ← getCounts e C n k s
  let s ← getBuckets C B k true s
  let s ← clearFrom m n s
  let s ← loopDown m s fun i s => do
    let j ← s.ld (.sa 0) i
    let s ← s.st (.sa 0) i 0
    let c ← chr e s j
    putEnd B c j s
  let s ← induceSA e C B n k s
  .ok (freeCounters k fs s)

/-- the part of stage 2 after the recursive call (src/sais32bit.cpp:306-321): `RA[j]` := position of the `j`-th LMS -/
def afterRec (e : Env) (n m ra : Nat) (s : St S) : M (St S) := do
  let (s, _) ← lmsScan e n s ((m : Int) - 1) fun i _ (s, j) => do
    let s ← s.st (.sa ra) j i
    .ok (s, j - 1)
  mapBack m ra s

/-- `sais_32bit` (src/sais32bit.cpp:155-353) and its 40, 48, 56 and 64 bit versions. `fuel` bounds the recursion depth
(running out is the fault `diverge`); `junk d` = contents of the blocks allocated at fuel level `d`. -/
def sais (junk : Nat → Nat → BitVec 64) : Nat → Env → Nat → Nat → Nat → St S → M (St S)
  | 0, _, _, _, _, _ => .error (.ub .diverge)
  | fuel + 1, e, fs, n, k, s => do
    let (s, m, name) ← stage1 (junk fuel) e fs n k s
    let s ← if name < m then do
        let ra := n + fs - m
        let s ← gatherNames n m ra s
        let s ← sais junk fuel { e with txt := .ptr ra, cs := width S } (fs + n - m * 2) m name s
        afterRec e n m ra s
      else .ok s
    stage3 (junk fuel) e fs n k m s

end

end Flbwt
