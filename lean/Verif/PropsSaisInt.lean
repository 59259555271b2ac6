import Verif.PropsTime2
import Verif.PropsDepth
import Verif.ErrIn

/-!
# Properties C70, C71: the suffix sorters on an integer array, and on the empty string

`sais_32bit` … `sais_64bit` take the text as a packed array, or, with `cs` = 32, 40, 48, 56, 64, as an array of their own integers
(`T` resp. `TA_L`, `TA_M`, `TA_U`). `bwt_string` uses the second form only in the recursion; here it is used by the caller.
-/

namespace Flbwt

open SaStore

variable {S : Type}

/-- The call `sais_XXbit(T, SA, fs, n, k, XX)` (for 40, 48, 56 bits: `sais_XXbit(NULL, TA_L, …, TA_U, SA_L, …, SA_U, fs, n, k, XX)`)
with the text in the integer array `ta`; `fuel` bounds the recursion depth. -/
def saisIntCall [SaStore S] (junk : Nat → Nat → BitVec 64) (sj : BitVec 64) (ta sa : S) (fs n k : Nat) (fuel : Nat) : M (St S) :=
  sais junk fuel { txt := .ints ⟨size ta, getU ta⟩, cs := width S, sj := sj } fs n k ⟨sa, fresh 0 (fun _ => 0)⟩

/-- the integer array begins with the string -/
def HoldsInts [SaStore S] (ta : S) (text : List Nat) : Prop :=
  ∀ (i : Nat) (h : i < text.length), i < size ta ∧ get ta i = (text[i] : Int)

theorem textAt_ints [LawfulSaStore S] {sj : BitVec 64} {ta : S} {s0 : St S} {text : List Nat} {lim : Nat} (h : HoldsInts ta text) :
    TextAt { txt := .ints ⟨size ta, getU ta⟩, cs := width S, sj := sj } s0 (fun i => text.getD i 0) text.length lim := by
  refine ⟨rfl, fun i hi => ?_⟩
  obtain ⟨h1, h2⟩ := h i hi
  refine ⟨h1, ?_⟩
  show getU ta i = _
  rw [LawfulSaStore.getU_get _ _ (by rw [h2]; omega), h2]
  simp [hi]

theorem saisInt_tot [LawfulSaStore S] (junk : Nat → Nat → BitVec 64) (sj : BitVec 64) (ta sa : S) (fs k fuel : Nat)
    (text : List Nat) (htext : HoldsInts ta text) (hn : text ≠ [])
    (hnw : text.length < 2 ^ (width S - 1)) (hkw : k ≤ 2 ^ (width S - 1)) (hT : ∀ c ∈ text, c < k)
    (hsz : text.length + fs ≤ size sa) (hfuel : text.length < 2 ^ fuel) :
    Tot (saisIntCall junk sj ta sa fs text.length k fuel) (fun s' => size s'.sa = size sa ∧
      (∀ x, text.length + fs ≤ x → get s'.sa x = get sa x) ∧ (∀ i, i < text.length → 0 ≤ get s'.sa i) ∧
      IsSuffixArray text (saList s' text.length)) := by
  have hn1 : 1 ≤ text.length := List.length_pos_of_ne_nil hn
  have ht : (List.range text.length).map (fun i => text.getD i 0) = text := by
    apply List.ext_getElem
    · simp
    · intro i h1 h2; simp [h2]
  have h := sais_spec (S := S) junk fuel { txt := .ints ⟨size ta, getU ta⟩, cs := width S, sj := sj } fs text.length k
    ⟨sa, fresh 0 (fun _ => 0)⟩ (fun i => text.getD i 0) hn1 (by exact_mod_cast hnw) (by exact_mod_cast hkw)
    (fun i hi => hT _ (by simp [hi])) (textAt_ints htext) hsz hfuel
  refine h.mono ?_
  rintro s' ⟨A, h1, h2⟩
  refine ⟨h1.sz, h1.frame, fun i hi => ?_, ?_⟩
  · obtain ⟨p, hp, hpi⟩ := inj_surj (srank (fun i => text.getD i 0) text.length) (fun q hq => srank_lt hq)
      (fun a ha b hb h => srank_inj ha hb h) i hi
    rw [h1.a i hi, ← hpi, h2 p hp]; omega
  · have h3 := isSuffixArray_of_srank h2
    have : ((List.range text.length).map fun i => (A i).toNat) = saList s' text.length :=
      List.map_congr_left (fun i hi => by rw [h1.a i (List.mem_range.1 hi)])
    rw [← this]
    rw [ht] at h3; exact h3

/-- **C70** The suffix sorters on an integer array: for every non-empty string over `0 … k-1` whose length and alphabet fit the
(signed) integers, every workspace size and every initial contents of memory, the call returns, leaves the suffix array in
`SA[0..n)` and nothing else in `SA` behind `SA[n+fs)`. -/
theorem C70_integer_text [LawfulSaStore S] (junk : Nat → Nat → BitVec 64) (sj : BitVec 64) (ta sa : S) (fs k fuel : Nat)
    (text : List Nat) (htext : HoldsInts ta text) (hn : text ≠ [])
    (hnw : text.length < 2 ^ (width S - 1)) (hkw : k ≤ 2 ^ (width S - 1)) (hT : ∀ c ∈ text, c < k)
    (hsz : text.length + fs ≤ size sa) (hfuel : text.length < 2 ^ fuel) :
    ∃ s', saisIntCall junk sj ta sa fs text.length k fuel = .ok s' ∧ IsSuffixArray text (saList s' text.length) ∧
      (∀ i, i < text.length → 0 ≤ get s'.sa i) ∧ size s'.sa = size sa ∧ ∀ x, text.length + fs ≤ x → get s'.sa x = get sa x := by
  obtain ⟨s', e, h1, h2, h3, h4⟩ := Tot_iff.1 (saisInt_tot junk sj ta sa fs k fuel text htext hn hnw hkw hT hsz hfuel)
  exact ⟨s', e, h4, h3, h1, h2⟩

/-- **C70** for the five widths -/
theorem C70_all_widths (junk : Nat → Nat → BitVec 64) (sj : BitVec 64) (fs k : Nat) (text : List Nat) (hn : text ≠ [])
    (hT : ∀ c ∈ text, c < k) :
    (∀ ta sa : S32, HoldsInts ta text → text.length < 2 ^ 31 → k ≤ 2 ^ 31 → text.length + fs ≤ size sa →
      ∃ s', saisIntCall junk sj ta sa fs text.length k 31 = .ok s' ∧ IsSuffixArray text (saList s' text.length)) ∧
    (∀ ta sa : S40, HoldsInts ta text → text.length < 2 ^ 39 → k ≤ 2 ^ 39 → text.length + fs ≤ size sa →
      ∃ s', saisIntCall junk sj ta sa fs text.length k 39 = .ok s' ∧ IsSuffixArray text (saList s' text.length)) ∧
    (∀ ta sa : S48, HoldsInts ta text → text.length < 2 ^ 47 → k ≤ 2 ^ 47 → text.length + fs ≤ size sa →
      ∃ s', saisIntCall junk sj ta sa fs text.length k 47 = .ok s' ∧ IsSuffixArray text (saList s' text.length)) ∧
    (∀ ta sa : S56, HoldsInts ta text → text.length < 2 ^ 55 → k ≤ 2 ^ 55 → text.length + fs ≤ size sa →
      ∃ s', saisIntCall junk sj ta sa fs text.length k 55 = .ok s' ∧ IsSuffixArray text (saList s' text.length)) ∧
    (∀ ta sa : S64, HoldsInts ta text → text.length < 2 ^ 63 → k ≤ 2 ^ 63 → text.length + fs ≤ size sa →
      ∃ s', saisIntCall junk sj ta sa fs text.length k 63 = .ok s' ∧ IsSuffixArray text (saList s' text.length)) := by
  refine ⟨?_, ?_, ?_, ?_, ?_⟩ <;>
  · intro ta sa ht hnw hkw hsz
    obtain ⟨s', e, h, _⟩ := C70_integer_text junk sj ta sa fs k _ text ht hn hnw hkw hT hsz hnw
    exact ⟨s', e, h⟩

/-- **C70** The form of the text does not matter: packed text and integer text, with any two widths, give the same array. -/
theorem C70_same_as_packed {S S' : Type} [LawfulSaStore S] [LawfulSaStore S'] (junk junk' : Nat → Nat → BitVec 64)
    (sj sj' : BitVec 64) (pa : PackedArray) (ta sa : S) (sa' : S') (fs fs' k k' fuel fuel' : Nat) (text : List Nat)
    (htext : HoldsInts ta text) (htext' : HoldsText sj' pa text) (hn : text ≠ []) (hT : ∀ c ∈ text, c < k)
    (hT' : ∀ c ∈ text, c < k') (hcs' : pa.bits ≠ width S')
    (hnw : text.length < 2 ^ (width S - 1)) (hnw' : text.length < 2 ^ (width S' - 1))
    (hkw : k ≤ 2 ^ (width S - 1)) (hkw' : k' ≤ 2 ^ (width S' - 1))
    (hsz : text.length + fs ≤ size sa) (hsz' : text.length + fs' ≤ size sa')
    (hf : text.length < 2 ^ fuel) (hf' : text.length < 2 ^ fuel') :
    ∃ s s', saisIntCall junk sj ta sa fs text.length k fuel = .ok s ∧ saisCall junk' sj' pa sa' fs' text.length k' fuel' = .ok s' ∧
      ∀ i, i < text.length → get s.sa i = get s'.sa i := by
  obtain ⟨s, e, _, _, h0, h⟩ := Tot_iff.1 (saisInt_tot junk sj ta sa fs k fuel text htext hn hnw hkw hT hsz hf)
  obtain ⟨s', e', _, _, h0', h'⟩ := Tot_iff.1 (saisCall_tot junk' sj' pa sa' fs' k' fuel' text hcs' htext' hn hnw' hkw' hT' hsz' hf')
  refine ⟨s, s', e, e', fun i hi => ?_⟩
  have hl := isSuffixArray_unique h h'
  have := congrArg (fun l => l.getD i 0) hl
  simp [saList, hi] at this
  have := h0 i hi
  have := h0' i hi
  omega

/-- **C70** linear time: at most `56·n + 12·k` loop iterations -/
theorem C70_linear_time [LawfulSaStore S] (junk : Nat → Nat → BitVec 64) (sj : BitVec 64) (ta sa : S) (fs k fuel : Nat)
    (text : List Nat) (htext : HoldsInts ta text) (hn : text ≠ [])
    (hnw : text.length < 2 ^ (width S - 1)) (hkw : k ≤ 2 ^ (width S - 1)) (hT : ∀ c ∈ text, c < k)
    (hsz : text.length + fs ≤ size sa) (hf : text.length < 2 ^ fuel) :
    ∃ st c, saisT junk fuel { txt := .ints ⟨size ta, getU ta⟩, cs := width S, sj := sj } fs text.length k
        ⟨sa, fresh 0 (fun _ => 0)⟩ = .ok (st, c) ∧
      saisIntCall junk sj ta sa fs text.length k fuel = .ok st ∧ c ≤ 56 * text.length + 12 * k := by
  obtain ⟨st, e, _⟩ := Tot_iff.1 (saisInt_tot junk sj ta sa fs k fuel text htext hn hnw hkw hT hsz hf)
  have hn1 : 1 ≤ text.length := List.length_pos_of_ne_nil hn
  have hc := cost_sais (S := S) junk fuel { txt := .ints ⟨size ta, getU ta⟩, cs := width S, sj := sj } fs text.length k
    ⟨sa, fresh 0 (fun _ => 0)⟩ (fun i => text.getD i 0) hn1 (by exact_mod_cast hnw) (by exact_mod_cast hkw)
    (fun i hi => hT _ (by simp [hi])) (textAt_ints htext) hsz
  have e' := erase_sais (S := S) junk fuel { txt := .ints ⟨size ta, getU ta⟩, cs := width S, sj := sj } fs text.length k
    ⟨sa, fresh 0 (fun _ => 0)⟩
  unfold saisIntCall at e
  rw [e] at e'
  cases hx : saisT junk fuel { txt := .ints ⟨size ta, getU ta⟩, cs := width S, sj := sj } fs text.length k
      ⟨sa, fresh 0 (fun _ => 0)⟩ with
  | error f => rw [hx] at e'; cases e'
  | ok q =>
    rw [hx] at e'
    obtain ⟨q1, q2⟩ := q
    cases e'
    have := hc _ hx
    exact ⟨_, q2, rfl, e, by simp only at this; omega⟩

/-! ## The hypotheses are met -/

/-- "2 1 2 1 0" as 32 bit integers, and a 40 bit array -/
def demoInts : S32 := ⟨⟨5, fun i => if i = 0 ∨ i = 2 then 2 else if i = 4 then 0 else 1⟩⟩

theorem demoInts_holds : HoldsInts demoInts [2, 1, 2, 1, 0] := by
  intro i h
  simp at h
  rcases (by omega : i = 0 ∨ i = 1 ∨ i = 2 ∨ i = 3 ∨ i = 4) with rfl | rfl | rfl | rfl | rfl <;> exact ⟨by decide, rfl⟩

example : ∃ s', saisIntCall (fun _ _ => 5) 0 demoInts (⟨⟨7, fun _ => 77⟩⟩ : S32) 2 5 3 31 = .ok s' ∧
    IsSuffixArray [2, 1, 2, 1, 0] (saList s' 5) :=
  (C70_all_widths _ 0 2 3 [2, 1, 2, 1, 0] (by decide) (by decide)).1 demoInts _ demoInts_holds (by decide) (by decide) (by decide)

example : ∃ s s', saisIntCall (fun _ _ => 5) 0 demoInts (⟨⟨7, fun _ => 77⟩⟩ : S32) 2 5 3 31 = .ok s ∧
    saisCall (fun _ _ => 9) 0 demoPacked (⟨⟨5, fun _ => 1⟩⟩ : S64) 0 5 4 63 = .ok s' ∧ ∀ i, i < 5 → get s.sa i = get s'.sa i :=
  C70_same_as_packed (S := S32) (S' := S64) _ _ 0 0 demoPacked demoInts _ _ 2 0 3 4 31 63 [2, 1, 2, 1, 0] demoInts_holds demo_holds
    (by decide) (by decide) (by decide) (by decide) (by decide) (by decide) (by decide) (by decide) (by decide) (by decide)
    (by decide) (by decide)

/-! ## The empty string -/

/-- undefined behaviour of any kind -/
abbrev IsUb (e : Err) : Prop := ∃ u, e = .ub u

section
variable [LawfulSaStore S] {P : Err → Prop}

theorem st_empty {s : St S} (p : Ptr) (i v : Int) (h : size s.sa = 0) :
    ErrIn IsUb (s.st p i v) (fun s' => size s'.sa = 0 ∧ p = .hp) := by
  unfold St.st
  refine ErrIn.ite (fun _ => ?_) (fun _ => ⟨_, rfl⟩)
  cases p with
  | sa off => exact ErrIn.ite (fun h' => absurd h'.2 (by rw [h]; omega)) (fun _ => ⟨_, rfl⟩)
  | hp => exact ErrIn.ite (fun _ => ⟨h, rfl⟩) (fun _ => ⟨_, rfl⟩)

theorem ld_empty {s : St S} (p : Ptr) (i : Int) : ErrIn IsUb (s.ld p i) (fun _ => True) := by
  unfold St.ld
  cases p with
  | sa off => exact ErrIn.ite (fun _ => trivial) (fun _ => ⟨_, rfl⟩)
  | hp => exact ErrIn.ite (fun _ => trivial) (fun _ => ⟨_, rfl⟩)

theorem shl64_ub (x : BitVec 64) (n : Nat) : ErrIn IsUb (shl64 x n) (fun _ => True) := by
  unfold shl64
  exact ErrIn.ite (fun _ => trivial) (fun _ => ⟨_, rfl⟩)

theorem shr64_ub (x : BitVec 64) (n : Nat) : ErrIn IsUb (shr64 x n) (fun _ => True) := by
  unfold shr64
  exact ErrIn.ite (fun _ => trivial) (fun _ => ⟨_, rfl⟩)

theorem rd_ub {α : Type} (m : Mem α) (i : Nat) : ErrIn IsUb (m.rd i) (fun _ => True) :=
  (ErrIn.rd ⟨_, rfl⟩).mono fun _ _ => trivial

theorem chr_ub (e : Env) (s : St S) (i : Int) : ErrIn IsUb (chr e s i) (fun _ => True) := by
  unfold chr
  refine ErrIn.ite (fun _ => ?_) (fun _ => ?_)
  · cases e.txt with
    | packed a => exact ⟨_, rfl⟩
    | ptr b => exact ErrIn.ite (fun _ => trivial) (fun _ => ⟨_, rfl⟩)
    | ints a => exact ErrIn.ite (fun _ => (rd_ub a _).bind fun _ _ => trivial) (fun _ => ⟨_, rfl⟩)
  · cases e.txt with
    | packed a =>
      refine ErrIn.ite (fun _ => ErrIn.bind (Q := fun _ => True) ?_ fun _ _ => trivial) (fun _ => ⟨_, rfl⟩)
      unfold getBits
      dsimp only
      refine ErrIn.ite (fun _ => (rd_ub a _).bind fun _ _ => (shr64_ub _ _).bind fun _ _ => trivial) (fun _ => ?_)
      exact (rd_ub a _).bind fun _ _ => (shl64_ub _ _).bind fun _ _ => (rd_ub a _).bind fun _ _ =>
        (shr64_ub _ _).bind fun _ _ => trivial
    | ptr b => exact ⟨_, rfl⟩
    | ints a => exact ⟨_, rfl⟩

theorem getCounts_empty (e : Env) (C : Ptr) (n k : Nat) {s : St S} (h : size s.sa = 0) :
    ErrIn IsUb (getCounts e C n k s) (fun s => size s.sa = 0) := by
  unfold getCounts
  refine ErrIn.bind (Q := fun s => size s.sa = 0) ?_ fun s h => ?_
  · exact ErrIn.loopUp (fun _ s => size s.sa = 0) 0 k s _ h fun i s _ _ h => (st_empty C _ _ h).mono fun _ h => h.1
  · exact ErrIn.loopUp (fun _ s => size s.sa = 0) 0 n s _ h fun i s _ _ h => (chr_ub e s _).bind fun c _ =>
      (ld_empty (s := s) C _).bind fun v _ => (st_empty C _ _ h).mono fun _ h => h.1

theorem getBuckets_empty (C B : Ptr) (k : Nat) (fin : Bool) {s : St S} (h : size s.sa = 0) :
    ErrIn IsUb (getBuckets C B k fin s) (fun s => size s.sa = 0) := by
  unfold getBuckets
  refine ErrIn.bind (Q := fun r => size r.2.sa = 0) ?_ fun s h => ErrIn.ok h
  exact ErrIn.loopUp (fun _ (r : Nat × St S) => size r.2.sa = 0) 0 k _ _ h fun i s _ _ h => (ld_empty (s := s.2) C _).bind fun v _ =>
    (st_empty B _ _ h).bind fun _ h => h.1

theorem recount_empty (e : Env) (C B : Ptr) (n k : Nat) {s : St S} (h : size s.sa = 0) :
    ErrIn IsUb (recount e C B n k s) (fun s => size s.sa = 0) := by
  unfold recount
  exact ErrIn.ite (fun _ => getCounts_empty e C n k h) (fun _ => h)

theorem pushL_empty (e : Env) (x : Ind S) (j : Int) (h : size x.s.sa = 0) : ErrIn IsUb (pushL e x j) (fun _ => False) := by
  unfold pushL testL
  refine ErrIn.bind (Q := fun _ => True) ?_ fun t _ => (st_empty (.sa 0) _ _ h).bind fun _ h => absurd h.2 (fun h => nomatch h)
  exact ErrIn.ite (fun _ => (chr_ub e x.s _).bind fun _ _ => trivial) (fun _ => trivial)

theorem induceSA_empty (e : Env) (C B : Ptr) (n k : Nat) {s : St S} (h : size s.sa = 0) :
    ErrIn IsUb (induceSA e C B n k s) (fun _ => False) := by
  unfold induceSA
  refine (recount_empty e C B n k h).bind fun s h => (getBuckets_empty C B k false h).bind fun s h => ?_
  exact (chr_ub e s _).bind fun ch _ => (ld_empty B _).bind fun b _ => (pushL_empty e _ _ h).bind fun _ h => h.elim

end

/-- **C71** The empty string is not handled: on `n = 0` with an array of no entries (`fs = 0`) every one of the five sorters, for
every alphabet size, every text argument and every contents of memory, reads or writes where it must not. -/
theorem C71_empty_string [LawfulSaStore S] (junk : Nat → Nat → BitVec 64) (e : Env) (sa hp : S) (k fuel : Nat)
    (h : size sa = 0) : ∃ u, sais junk (fuel + 1) e 0 0 k ⟨sa, hp⟩ = .error (.ub u) := by
  have key : ErrIn IsUb (sais junk (fuel + 1) e 0 0 k ⟨sa, hp⟩) (fun _ => False) := by
    rw [sais]
    refine ErrIn.bind (Q := fun _ => False) ?_ fun _ h => h.elim
    unfold stage1
    have hq : size (placeCounters 0 k 0 (junk fuel) (⟨sa, hp⟩ : St S)).2.2.sa = 0 := by
      unfold placeCounters; split <;> exact h
    generalize placeCounters 0 k 0 (junk fuel) (⟨sa, hp⟩ : St S) = x at hq
    obtain ⟨C, B, s⟩ := x
    dsimp only at hq ⊢
    refine (getCounts_empty e C 0 k hq).bind fun s h => (getBuckets_empty C B k true h).bind fun s h => ?_
    refine ErrIn.bind (Q := fun s : St S => size s.sa = 0) (show ErrIn IsUb (Except.ok s) _ from h) fun s h => ?_
    refine ErrIn.bind (Q := fun r => size r.1.sa = 0) ?_ fun r h => ?_
    · unfold lmsScan
      refine (chr_ub e s _).bind fun c _ => ?_
      exact h
    · exact (induceSA_empty e C B 0 k h).bind fun _ h => h.elim
  cases hx : sais junk (fuel + 1) e 0 0 k ⟨sa, hp⟩ with
  | ok a => rw [hx] at key; exact key.elim
  | error u => rw [hx] at key; obtain ⟨u, rfl⟩ := key; exact ⟨u, rfl⟩

/-- on the string "2 1 2 1 0" cut to length 0, with the arrays of C24's example -/
example : saisCall (fun _ _ => 5) 0 demoPacked (⟨⟨0, fun _ => 77⟩⟩ : S32) 0 0 3 31 = .error (.ub .outOfBounds) := by with_unfolding_all rfl

end Flbwt
