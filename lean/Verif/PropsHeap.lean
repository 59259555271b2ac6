import Verif.HeapTop

/-!
# Properties C47–C51: memory

The heap (`HeapBase.lean`): `h.live b` is the number of live blocks of description `b` (what the block is for and how many
bytes it has), `h.av k b` says whether request number `k`, for a block `b`, can be satisfied, `h.failed` counts the requests
that could not, `h.total` is the number of bytes in use and `h.peak` its largest value so far. `bwtStringH` is `bwt_string`
with every `new`, `malloc`, `realloc`, `delete` and `free` explicit. All theorems are about every initial heap.
-/

namespace Flbwt

section
variable {T : Mem Nat} {s : List Nat}

/-- If the callee is to release the text, the text must be on the heap. -/
def TextOwned (freeT : Bool) (T : Mem Nat) (h : Heap) : Prop :=
  freeT = true → 1 ≤ h.live ⟨.text, T.size⟩ ∧ T.size ≤ h.total

/-- Exactly the two blocks of the result (the transform, `n + 1` bytes, and the structure of 16 bytes) were added to the heap,
and exactly the text was removed if the caller asked for it. -/
def OnlyResultAdded (freeT : Bool) (T : Mem Nat) (n : Nat) (h h' : Heap) : Prop :=
  ∀ b, h'.live b + (if freeT = true ∧ b = ⟨.text, T.size⟩ then 1 else 0) =
    h.live b + (if b = ⟨.bwt, n + 1⟩ then 1 else 0) + (if b = ⟨.result, 16⟩ then 1 else 0)

theorem onlyResult_of_has {freeT : Bool} {n P : Nat} {h h' : Heap} (ht : TextOwned freeT T h)
    (a : HL (withoutText freeT T h) [resultBlk, bwtBlk n] P h') : OnlyResultAdded freeT T n h h' := by
  intro b
  have hb := a.1.live b
  simp only [List.count_cons, List.count_nil, withoutText] at hb
  have e1 : ((resultBlk == b) = true) ↔ b = ⟨.result, 16⟩ := by rw [beq_iff_eq]; exact eq_comm
  have e2 : ((bwtBlk n == b) = true) ↔ b = ⟨.bwt, n + 1⟩ := by rw [beq_iff_eq]; exact eq_comm
  simp only [e1, e2] at hb
  cases freeT with
  | false =>
    simp only [Bool.false_eq_true, if_false, false_and] at hb ⊢
    omega
  | true =>
    obtain ⟨h1, _⟩ := ht rfl
    simp only [if_true, Heap.sub, true_and] at hb ⊢
    by_cases hc : b = ⟨.text, T.size⟩
    · subst hc
      simp only [if_true] at hb ⊢
      omega
    · simp only [if_neg hc] at hb ⊢
      omega

theorem bwtStringH_outcome (w : World) (g : GoodCall w.junk w.sorter T s) (freeT : Bool) (h : Heap) (ht : TextOwned freeT T h) :
    Outcome w T s.length freeT h (bwtStringH w (some T) s.length freeT h) := by
  have h3 := g.len3
  unfold bwtStringH
  simp only
  rw [if_neg (by omega)]
  refine bwtIsH_outcome w g.inp g.len g.sort freeT ?_ h ht
  obtain ⟨⟨o, T'⟩, eb, ⟨r, hr, _⟩, hT'⟩ := Tot_iff.1 (bwtIs_spec w g.inp g.min g.len g.sort freeT)
  simp only at hr hT'
  subst hr; subst hT'
  exact ⟨r, eb⟩

theorem bwtString_bwtIs (w : World) (g : GoodCall w.junk w.sorter T s) (freeT : Bool) :
    bwtString w (some T) s.length freeT = bwtIs w T s.length freeT := by
  have h3 := g.len3
  simp only [bwtString]
  rw [if_neg (by omega)]

/-- **C47** when memory does not run out the call returns the transform, and afterwards exactly the two blocks of the result
have been added to the heap (the 3·258+258 queues, their blocks, the table and its buffer, the arrays, the container: all
released exactly once); the text was released exactly if the caller asked for it. -/
theorem C47_no_leak (w : World) (g : GoodCall w.junk w.sorter T s) (freeT : Bool) (h : Heap) (ht : TextOwned freeT T h)
    (hav : ∀ k b, h.av k b = true) :
    ∃ r T' h', bwtStringH w (some T) s.length freeT h = (.ok (some r, T'), h') ∧ IsBWT s r.bwt.data r.last ∧
      OnlyResultAdded freeT T s.length h h' := by
  have o := bwtStringH_outcome w g freeT h ht
  obtain ⟨r0, e0, _, hr0⟩ := bwtString_good w g freeT
  rw [bwtString_bwtIs w g] at e0
  revert o
  rcases bwtStringH w (some T) s.length freeT h with ⟨x, h'⟩
  intro o
  cases o with
  | first c => rw [hav] at c; cases c
  | front e h' he hf why => obtain ⟨k, b, _, c⟩ := why; rw [hav] at c; cases c
  | back e h' he hf why => obtain ⟨k, b, _, c⟩ := why; rw [hav] at c; cases c
  | done r h' hr hf has =>
    rw [hr] at e0
    cases e0
    exact ⟨_, _, h', rfl, hr0, onlyResult_of_has ht has⟩

/-- **C47** a caller that releases the result as `bwt_file` does (`delete[]` for the array, `free` for the structure) is back
at the heap it started with: the operators match the requests, and nothing else is left. -/
theorem C47_release_restores (w : World) (g : GoodCall w.junk w.sorter T s) (freeT : Bool) (h : Heap) (ht : TextOwned freeT T h)
    (hav : ∀ k b, h.av k b = true) :
    ∃ h', (bwtStringH w (some T) s.length freeT >>= fun _ => releaseResultH s.length) h = (.ok (), h') ∧
      ∀ b, h'.live b + (if freeT = true ∧ b = ⟨.text, T.size⟩ then 1 else 0) = h.live b := by
  obtain ⟨r, T', h1, e, _, ho⟩ := C47_no_leak w g freeT h ht hav
  rw [H.bind_def, e]
  simp only [releaseResultH, H.bind_def, freeB]
  have b1 := ho (bwtBlk s.length)
  have b2 := ho resultBlk
  have ne1 : ¬ (bwtBlk s.length = ⟨.text, T.size⟩) := by simp
  have ne2 : ¬ (resultBlk = ⟨.text, T.size⟩) := by simp
  have ne3 : ¬ (resultBlk = ⟨.bwt, s.length + 1⟩) := by simp
  rw [if_neg (by simp), if_pos rfl, if_neg (by simp)] at b1
  rw [if_neg (by simp), if_neg (by simp), if_pos rfl] at b2
  rw [if_pos (by rfl), if_pos (by omega)]
  simp only
  rw [if_pos (by rfl), if_pos (by simp only [Heap.sub]; rw [if_neg (by simp)]; omega)]
  refine ⟨_, rfl, fun b => ?_⟩
  have hb := ho b
  simp only [Heap.sub]
  by_cases c1 : b = bwtBlk s.length
  · subst c1
    simp only [if_true] at hb ⊢
    simp at hb ⊢
    omega
  · by_cases c2 : b = resultBlk
    · subst c2
      simp at hb ⊢
      omega
    · rw [if_neg c1, if_neg c2] at hb
      rw [if_neg c2, if_neg c1]
      omega

/-- `free(B->BWT)` and `delete B` would not be allowed: the array comes from `new[]`, the structure from `malloc`. -/
theorem C47_other_release_undefined (n : Nat) (h : Heap) : (freeB .c (bwtBlk n) h).1 = .error .badFree ∧
    (freeB .obj (bwtBlk n) h).1 = .error .badFree ∧ (freeB .obj resultBlk h).1 = .error .badFree ∧
    (freeB .arr resultBlk h).1 = .error .badFree := ⟨rfl, rfl, rfl, rfl⟩

/-- **C48** memory may run out at any request, any number of times. Either the call returns; then it returns the same as with
unlimited memory, every request was satisfied, and the heap is as in C47. Or a request failed and the call ends by
`std::bad_alloc` or by dereferencing a null pointer (the results of `malloc` and `realloc` are not tested). In no case is a
block released that is not live or with an operator that does not match its request: no double `free`, no `free` of a
block that was not obtained, no `free` of what `new` returned. -/
theorem C48_every_allocation_failure (w : World) (g : GoodCall w.junk w.sorter T s) (freeT : Bool) (h : Heap)
    (ht : TextOwned freeT T h) :
    (∃ r T' h', bwtStringH w (some T) s.length freeT h = (.ok (some r, T'), h') ∧
      bwtString w (some T) s.length freeT = .ok (some r, T') ∧ h'.failed = h.failed ∧ h'.av = h.av ∧ OnlyResultAdded freeT T s.length h h') ∨
    (∃ e h', bwtStringH w (some T) s.length freeT h = (.error e, h') ∧ (e = .badAlloc ∨ e = .prog (.ub .nullDeref)) ∧
      h.failed < h'.failed ∧ ∃ k b, h.av k b = false) := by
  have o := bwtStringH_outcome w g freeT h ht
  rw [bwtString_bwtIs w g]
  revert o
  rcases bwtStringH w (some T) s.length freeT h with ⟨x, h'⟩
  intro o
  cases o with
  | first c => exact Or.inr ⟨_, _, rfl, Or.inl rfl, by simp [Heap.refused], _, _, c⟩
  | front e h' he hf why => obtain ⟨k, b, _, c⟩ := why; exact Or.inr ⟨_, _, rfl, he, hf, k, b, c⟩
  | back e h' he hf why => obtain ⟨k, b, _, c⟩ := why; exact Or.inr ⟨_, _, rfl, he, hf, k, b, c⟩
  | done r h' hr hf has sa av => exact Or.inl ⟨r, _, h', rfl, hr, hf, av, onlyResult_of_has ht has⟩

/-- **C49** who owns the text: without `free_T` the caller keeps it, whatever request fails; with `free_T` a call that returns
has released it exactly once. No other text block of the caller is touched. -/
theorem C49_text_ownership (w : World) (g : GoodCall w.junk w.sorter T s) (h : Heap) :
    (∀ m, (bwtStringH w (some T) s.length false h).2.live ⟨.text, m⟩ = h.live ⟨.text, m⟩) ∧
    (TextOwned true T h → ∀ r h', bwtStringH w (some T) s.length true h = (.ok r, h') →
      ∀ m, h'.live ⟨.text, m⟩ = h.live ⟨.text, m⟩ - (if m = T.size then 1 else 0)) := by
  constructor
  · intro m
    have o := bwtStringH_outcome w g false h (fun e => by cases e)
    revert o
    rcases bwtStringH w (some T) s.length false h with ⟨x, h'⟩
    intro o
    cases o with
    | first c => rfl
    | front e h' he hf why c0 text cont => exact text m
    | back e h' he hf why c0 text cont => exact text m
    | done r h' hr hf has =>
      have := onlyResult_of_has (fun e => by cases e) has ⟨.text, m⟩
      simpa using this
  · intro ht r h' e m
    have o := bwtStringH_outcome w g true h ht
    rw [e] at o
    cases o with
    | done r h' hr hf has =>
      have := onlyResult_of_has ht has ⟨.text, m⟩
      by_cases hm : m = T.size
      · simp only [hm, and_self, if_true] at this ⊢
        simp at this
        omega
      · simp [hm] at this ⊢
        omega

/-- **C49** (violated) with `free_T` a caller that catches `std::bad_alloc` cannot know whether it still owns the text: for every
good call there are allocation failures after which the text is still live and failures after which it was released, both reported
by the same exception. -/
theorem C49_bad_alloc_ambiguous (w : World) (g : GoodCall w.junk w.sorter T s) (h : Heap) (ht : TextOwned true T h) :
    (∃ av h', bwtStringH w (some T) s.length true { h with av := av } = (.error .badAlloc, h') ∧
      ∀ m, h'.live ⟨.text, m⟩ = h.live ⟨.text, m⟩) ∧
    (∃ av h', bwtStringH w (some T) s.length true { h with av := av } = (.error .badAlloc, h') ∧
      ∀ m, h'.live ⟨.text, m⟩ = h.live ⟨.text, m⟩ - (if m = T.size then 1 else 0)) := by
  constructor
  · refine ⟨fun _ _ => false, ({ h with av := fun _ _ => false } : Heap).refused, ?_, ?_⟩
    · have h3 := g.len3
      unfold bwtStringH bwtIsH
      simp only
      rw [if_neg (by omega), H.bind_def]
      rfl
    · intro m; rfl
  · have o := bwtStringH_outcome w g true { h with av := fun _ b => decide (b.role ≠ .sa) } ht
    have hsa : ∀ k (b : Blk), b.role = .sa → ({ h with av := fun _ b => decide (b.role ≠ .sa) } : Heap).av k b = false := by
      intro k b hb; simp [hb]
    refine ⟨fun _ b => decide (b.role ≠ .sa), ?_⟩
    revert o
    rcases bwtStringH w (some T) s.length true { h with av := fun _ b => decide (b.role ≠ .sa) } with ⟨x, h'⟩
    intro o
    cases o with
    | first c => simp at c
    | front e h' he hf why =>
      obtain ⟨k, b, hr, c⟩ := why
      simp only [ne_eq, decide_not, Bool.not_eq_false', decide_eq_true_eq] at c
      rw [c] at hr
      simp [RF, RT] at hr
    | back e h' he hf why c0 text cont sa =>
      rw [sa hsa]
      refine ⟨h', rfl, fun m => ?_⟩
      rw [text m]
      simp only [withoutText, if_true, Heap.sub, Blk.mk.injEq, true_and]
      split <;> simp_all
    | done r h' hr hf has sa => exact absurd hsa sa

/-- **C50** memory is linear: a call that returns has used at most `58·n + 70600000` bytes beyond what was in use before. -/
theorem C50_linear_memory (w : World) (g : GoodCall w.junk w.sorter T s) (freeT : Bool) (h : Heap) (ht : TextOwned freeT T h)
    {r : Option BwtResult × Option (Mem Nat)} {h' : Heap} (e : bwtStringH w (some T) s.length freeT h = (.ok r, h')) :
    h'.peak ≤ max h.peak (h.total + 58 * s.length + 70600000) := by
  have o := bwtStringH_outcome w g freeT h ht
  rw [e] at o
  cases o with
  | done r h' hr hf has => exact has.2

/-- bytes of an array of `w` bit integers -/
def arrayBytes {w : Nat} (m : Mem (BitVec w)) : Nat := m.size * (w / 8)

/-- **C50** the blocks requested for an integer array (suffix array or counters) of `len` entries have exactly the sizes of the
arrays it consists of: 4, 5, 6, 7 and 8 bytes per entry in total. -/
theorem C50_array_bytes (ro : Role) (len : Nat) (junk : Nat → BitVec 64) :
    (arrBlks S32 ro len = [⟨ro, arrayBytes (SaStore.fresh len junk : S32).m⟩]) ∧
    (arrBlks S40 ro len = [⟨ro, arrayBytes (SaStore.fresh len junk : S40).L⟩, ⟨ro, arrayBytes (SaStore.fresh len junk : S40).U⟩]) ∧
    (arrBlks S48 ro len = [⟨ro, arrayBytes (SaStore.fresh len junk : S48).L⟩, ⟨ro, arrayBytes (SaStore.fresh len junk : S48).U⟩]) ∧
    (arrBlks S56 ro len = [⟨ro, arrayBytes (SaStore.fresh len junk : S56).L⟩, ⟨ro, arrayBytes (SaStore.fresh len junk : S56).M⟩,
      ⟨ro, arrayBytes (SaStore.fresh len junk : S56).U⟩]) ∧
    (arrBlks S64 ro len = [⟨ro, arrayBytes (SaStore.fresh len junk : S64).m⟩]) :=
  ⟨rfl, rfl, rfl, rfl, rfl⟩

/-- **C51** (violated) a failed call leaks: unless the very first request is refused, every call that fails for lack of memory
leaves the container (12472 bytes) on the heap for ever; and the two outcomes of the first request are the only possibilities. -/
theorem C51_failure_leaks (w : World) (g : GoodCall w.junk w.sorter T s) (freeT : Bool) (h : Heap) (ht : TextOwned freeT T h)
    {e : HErr} {h' : Heap} (hx : bwtStringH w (some T) s.length freeT h = (.error e, h')) :
    (h.av h.reqs ⟨.container, 12472⟩ = false ∧ e = .badAlloc ∧ ∀ b, h'.live b = h.live b) ∨
    (h.av h.reqs ⟨.container, 12472⟩ = true ∧ h'.live ⟨.container, 12472⟩ = h.live ⟨.container, 12472⟩ + 1) := by
  have o := bwtStringH_outcome w g freeT h ht
  rw [hx] at o
  cases o with
  | first c => exact Or.inl ⟨c, rfl, fun b => rfl⟩
  | front e h' he hf why c0 text cont =>
    refine Or.inr ⟨c0, ?_⟩
    rw [cont 12472]
    simp [Heap.got, Heap.add]
  | back e h' he hf why c0 text cont sa =>
    refine Or.inr ⟨c0, ?_⟩
    rw [cont 12472]
    simp [Heap.got, Heap.add]

/-- **C51** such calls exist for every input: refusing only the suffix array makes every good call throw and leak. -/
theorem C51_leak_reachable (w : World) (g : GoodCall w.junk w.sorter T s) (freeT : Bool) (h : Heap) (ht : TextOwned freeT T h) :
    ∃ av h', bwtStringH w (some T) s.length freeT { h with av := av } = (.error .badAlloc, h') ∧
      h'.live ⟨.container, 12472⟩ = h.live ⟨.container, 12472⟩ + 1 := by
  have o := bwtStringH_outcome w g freeT { h with av := fun _ b => decide (b.role ≠ .sa) } ht
  have hsa : ∀ k (b : Blk), b.role = .sa → ({ h with av := fun _ b => decide (b.role ≠ .sa) } : Heap).av k b = false := by
    intro k b hb; simp [hb]
  refine ⟨fun _ b => decide (b.role ≠ .sa), ?_⟩
  revert o
  rcases bwtStringH w (some T) s.length freeT { h with av := fun _ b => decide (b.role ≠ .sa) } with ⟨x, h'⟩
  intro o
  cases o with
  | first c => simp at c
  | front e h' he hf why =>
    obtain ⟨k, b, hr, c⟩ := why
    simp only [ne_eq, decide_not, Bool.not_eq_false', decide_eq_true_eq] at c
    rw [c] at hr
    simp [RF, RT] at hr
  | back e h' he hf why c0 text cont sa =>
    rw [sa hsa]
    refine ⟨h', rfl, ?_⟩
    rw [cont 12472]
    simp [Heap.got, Heap.add]
  | done r h' hr hf has sa => exact absurd hsa sa

/-- Rejected calls (null pointer or length 0) do not touch the heap. -/
theorem C48_rejected_call (w : World) (T : Option (Mem Nat)) (n : Nat) (freeT : Bool) (h : Heap) (hr : T = none ∨ n = 0) :
    bwtStringH w T n freeT h = (.error (.prog (.throw .invalidArgument)), h) := by
  unfold bwtStringH
  cases T with
  | none => rfl
  | some T =>
    rcases hr with hr | hr
    · cases hr
    · subst hr; rfl

end

/-! ## Instances -/

/-- a heap with unlimited memory that holds the text "banana" and a block of the caller -/
def bananaHeap : Heap :=
  { av := fun _ _ => true, reqs := 5, failed := 0, total := 107, peak := 200
    live := fun b => if b = ⟨.text, 7⟩ then 1 else if b = ⟨.buf, 100⟩ then 1 else 0 }

theorem bananaHeap_owned : TextOwned true (cString banana) bananaHeap := by
  intro _
  decide

/-- an environment for "banana" -/
def bananaWorld (sj : BitVec 64) : World :=
  ⟨⟨fun i => 2 * i + 1, 40000000⟩, fun i => i, fun i => BitVec.ofNat 64 i, fun _ => 7, fun _ _ => 9, fun _ _ _ _ => 3, fun _ => 65, sj,
    insSort⟩

example (sj : BitVec 64) : ∃ r T' h', bwtStringH (bananaWorld sj) (some (cString banana)) 6 true bananaHeap = (.ok (some r, T'), h') ∧
    IsBWT banana r.bwt.data r.last ∧ OnlyResultAdded true (cString banana) 6 bananaHeap h' :=
  C47_no_leak (bananaWorld sj) (T := cString banana) (s := banana) banana_good true bananaHeap bananaHeap_owned (fun _ _ => rfl)

/-- the block of the caller is still there, the text is gone, the transform has 7 bytes -/
example (sj : BitVec 64) : ∃ r h', bwtStringH (bananaWorld sj) (some (cString banana)) 6 true bananaHeap = (.ok r, h') ∧
    h'.live ⟨.buf, 100⟩ = 1 ∧ h'.live ⟨.text, 7⟩ = 0 ∧ h'.live ⟨.bwt, 7⟩ = 1 ∧ h'.live ⟨.queue, 56⟩ = 0 := by
  obtain ⟨r, T', h', e, _, ho⟩ := C47_no_leak (bananaWorld sj) (T := cString banana) (s := banana) banana_good true bananaHeap
    bananaHeap_owned (fun _ _ => rfl)
  refine ⟨_, h', e, ?_, ?_, ?_, ?_⟩
  · simpa [bananaHeap, cString, banana] using ho ⟨.buf, 100⟩
  · simpa [bananaHeap, cString, banana] using ho ⟨.text, 7⟩
  · simpa [bananaHeap, cString, banana] using ho ⟨.bwt, 7⟩
  · simpa [bananaHeap, cString, banana] using ho ⟨.queue, 56⟩

example (sj : BitVec 64) : ∃ av h', bwtStringH (bananaWorld sj) (some (cString banana)) 6 true { bananaHeap with av := av } =
    (.error .badAlloc, h') ∧ h'.live ⟨.container, 12472⟩ = 1 :=
  C51_leak_reachable (bananaWorld sj) (T := cString banana) (s := banana) banana_good true bananaHeap bananaHeap_owned

example (sj : BitVec 64) (av : Nat → Blk → Bool) : ∀ m, (bwtStringH (bananaWorld sj) (some (cString banana)) 6 false
    { bananaHeap with av := av }).2.live ⟨.text, m⟩ = bananaHeap.live ⟨.text, m⟩ :=
  (C49_text_ownership (bananaWorld sj) (T := cString banana) (s := banana) banana_good { bananaHeap with av := av }).1

end Flbwt
