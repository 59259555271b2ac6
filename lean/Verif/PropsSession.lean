import Verif.PropsHeap

/-!
# C62: histories of calls

A program that uses the library for some time: it obtains texts with `malloc`, calls `bwt_string` on them with or without
`free_T`, keeps some of the results, and releases results in any order (as src/flbwt.cpp:101-107 does).
-/

namespace Flbwt

/-- One action of a client. `call`: obtain the text, call `bwt_string`, keep the result, release the text unless the library
did. `release i`: release the `i`-th of the results kept. -/
inductive SOp where
  | call (w : World) (T : Mem Nat) (s : List Nat) (freeT : Bool)
  | release (i : Nat)

/-- A result a client keeps: the length it asked for and what was returned. -/
abbrev Kept := Nat × Option BwtResult

/-- `free(T)` by the client, unless the library did it -/
def dropText (freeT : Bool) (size : Nat) : H Unit := if freeT then pure () else freeB .c ⟨.text, size⟩

/-- The action, on the results kept and the heap. Not code of the repository: a client, written with the operations of the
heap model. -/
def SOp.exec (kept : List Kept) : SOp → H (List Kept)
  | .call w T s freeT => do
    let p ← mallocB ⟨.text, T.size⟩
    nonNull p
    let r ← bwtStringH w (some T) s.length freeT
    dropText freeT T.size
    pure (kept ++ [(s.length, r.1)])
  | .release i =>
    match kept[i]? with
    | none => fun h => (.error .badFree, h)
    | some k => do
      releaseResultH k.1
      pure (kept.eraseIdx i)

/-- A history. -/
def SOp.execs (kept : List Kept) : List SOp → H (List Kept)
  | [] => pure kept
  | o :: os => do
    let kept ← o.exec kept
    SOp.execs kept os

/-- Specification: which texts the client holds transforms of; `none` if it releases a result it does not have. -/
def SOp.specs (kept : List (List Nat)) : List SOp → Option (List (List Nat))
  | [] => some kept
  | .call _ _ s _ :: os => SOp.specs (kept ++ [s]) os
  | .release i :: os => if i < kept.length then SOp.specs (kept.eraseIdx i) os else none

/-- The calls are good calls. -/
def SOp.Good : SOp → Prop
  | .call w T s _ => GoodCall w.junk w.sorter T s
  | .release _ => True

/-- The result kept is the transform of the text. -/
def KeptOK (k : Kept) (s : List Nat) : Prop := k.1 = s.length ∧ ∃ r, k.2 = some r ∧ IsBWT s r.bwt.data r.last

/-- Number of blocks of description `b` that belong to the results for the texts `kept`: per text one array of `n + 1` bytes
and one structure of 16 bytes. -/
def resultBlocks (kept : List (List Nat)) (b : Blk) : Nat :=
  kept.countP (fun s => b = ⟨.bwt, s.length + 1⟩) + (if b = ⟨.result, 16⟩ then kept.length else 0)

theorem resultBlocks_append (kept : List (List Nat)) (s : List Nat) (b : Blk) :
    resultBlocks (kept ++ [s]) b = resultBlocks kept b + (if b = ⟨.bwt, s.length + 1⟩ then 1 else 0) +
      (if b = ⟨.result, 16⟩ then 1 else 0) := by
  unfold resultBlocks
  simp only [List.countP_append, List.countP_cons, List.countP_nil, List.length_append, List.length_singleton, decide_eq_true_eq]
  split <;> split <;> omega

theorem resultBlocks_erase (kept : List (List Nat)) (i : Nat) (s : List Nat) (hi : kept[i]? = some s) (b : Blk) :
    resultBlocks kept b = resultBlocks (kept.eraseIdx i) b + (if b = ⟨.bwt, s.length + 1⟩ then 1 else 0) +
      (if b = ⟨.result, 16⟩ then 1 else 0) := by
  have hlt : i < kept.length := (List.getElem?_eq_some_iff.1 hi).1
  have h1 : kept.Perm (s :: kept.eraseIdx i) := by
    have := (List.getElem?_eq_some_iff.1 hi).2
    rw [← this]
    exact (List.getElem_cons_eraseIdx_perm hlt).symm
  unfold resultBlocks
  rw [h1.countP_eq, h1.length_eq]
  simp only [List.countP_cons, List.length_cons, decide_eq_true_eq]
  split <;> split <;> omega

/-- The state between two actions. -/
structure SInv (h0 : Heap) (kept : List Kept) (texts : List (List Nat)) (h : Heap) : Prop where
  av : h.av = h0.av
  failed : h.failed = h0.failed
  live : ∀ b, h.live b = h0.live b + resultBlocks texts b
  res : List.Forall₂ KeptOK kept texts

theorem call_session (h0 : Heap) (hav : ∀ k b, h0.av k b = true) {kept : List Kept} {texts : List (List Nat)} {h : Heap}
    (I : SInv h0 kept texts h) (w : World) (T : Mem Nat) (s : List Nat) (freeT : Bool)
    (g : GoodCall w.junk w.sorter T s) :
    ∃ kept' h', SOp.exec kept (.call w T s freeT) h = (.ok kept', h') ∧ SInv h0 kept' (texts ++ [s]) h' := by
  have hav1 : h.av h.reqs ⟨.text, T.size⟩ = true := by rw [I.av]; exact hav _ _
  have hm : mallocB ⟨.text, T.size⟩ h = (.ok true, h.got ⟨.text, T.size⟩) := by
    unfold mallocB
    rw [if_pos (by rfl), if_pos hav1]
  simp only [SOp.exec, H.bind_def, hm, nonNull, if_true]
  have hto : TextOwned freeT T (h.got ⟨.text, T.size⟩) := by
    intro _
    simp [Heap.got, Heap.add]
  have hc := C48_every_allocation_failure w g freeT (h.got ⟨.text, T.size⟩) hto
  obtain ⟨r0, e0, _, hr0⟩ := bwtString_good w g freeT
  rcases hc with ⟨r, T', h1, e1, e2, f1, a1, o1⟩ | ⟨e, h1, _, _, _, k, b, hk⟩
  swap
  · have : (h.got ⟨.text, T.size⟩).av k b = true := by
      show h.av k b = true
      rw [I.av]; exact hav _ _
    rw [this] at hk; cases hk
  rw [e0] at e2
  cases e2
  rw [e1]
  simp only
  have hlive : ∀ b, (h.got ⟨.text, T.size⟩).live b = h.live b + (if b = ⟨.text, T.size⟩ then 1 else 0) := by
    intro b
    simp only [Heap.got, Heap.add]
    split <;> omega
  have hOK : List.Forall₂ KeptOK (kept ++ [(s.length, some r0)]) (texts ++ [s]) :=
    List.rel_append I.res (.cons ⟨rfl, r0, rfl, hr0⟩ .nil)
  have av1 : h1.av = h0.av := a1.trans I.av
  have fl1 : h1.failed = h0.failed := f1.trans I.failed
  unfold dropText
  cases freeT with
  | true =>
    simp only [if_true]
    refine ⟨_, h1, rfl, av1, fl1, fun b => ?_, hOK⟩
    have ho := o1 b
    simp only [true_and] at ho
    rw [hlive b] at ho
    rw [resultBlocks_append]
    have := I.live b
    omega
  | false =>
    have ht := o1 ⟨.text, T.size⟩
    rw [hlive ⟨.text, T.size⟩] at ht
    simp only [Bool.false_eq_true, false_and, if_false, if_true] at ht
    simp only [Bool.false_eq_true, if_false]
    unfold freeB
    rw [if_pos (by rfl), if_pos (by omega)]
    refine ⟨_, _, rfl, av1, fl1, fun b => ?_, hOK⟩
    have ho := o1 b
    simp only [Bool.false_eq_true, false_and, if_false] at ho
    rw [hlive b] at ho
    rw [resultBlocks_append]
    have := I.live b
    simp only [Heap.sub]
    by_cases hb : b = ⟨.text, T.size⟩
    · rw [if_pos hb]
      rw [if_pos hb] at ho
      omega
    · rw [if_neg hb]
      rw [if_neg hb] at ho
      omega

theorem release_session {h0 : Heap} {kept : List Kept} {texts : List (List Nat)} {h : Heap} (I : SInv h0 kept texts h) (i : Nat)
    (hi : i < texts.length) :
    ∃ kept' h', SOp.exec kept (.release i) h = (.ok kept', h') ∧ SInv h0 kept' (texts.eraseIdx i) h' := by
  have hl := I.res.length_eq
  obtain ⟨k, hk⟩ : ∃ k, kept[i]? = some k := ⟨kept[i], by simp [hl, hi]⟩
  obtain ⟨s, hs⟩ : ∃ s, texts[i]? = some s := ⟨texts[i], by simp [hi]⟩
  have hks : KeptOK k s := by
    have := (List.forall₂_iff_get.1 I.res).2 i (by omega) hi
    rw [List.getElem?_eq_some_iff] at hk hs
    obtain ⟨_, rfl⟩ := hk
    obtain ⟨_, rfl⟩ := hs
    simpa using this
  have hr := fun b => resultBlocks_erase texts i s hs b
  have l1 := I.live (bwtBlk s.length)
  have l2 := I.live resultBlk
  rw [hr (bwtBlk s.length), if_pos rfl, if_neg (by simp)] at l1
  rw [hr resultBlk, if_neg (by simp), if_pos rfl] at l2
  simp only [SOp.exec, hk, H.bind_def, releaseResultH, hks.1]
  unfold freeB
  rw [if_pos (by rfl), if_pos (by omega)]
  simp only
  rw [if_pos (by rfl), if_pos (by simp only [Heap.sub]; rw [if_neg (by simp)]; omega)]
  refine ⟨_, _, rfl, I.av, I.failed, fun b => ?_, ?_⟩
  · have hb := I.live b
    rw [hr b] at hb
    simp only [Heap.sub]
    by_cases c1 : b = bwtBlk s.length
    · have c2 : ¬ b = resultBlk := by subst c1; simp
      rw [if_neg c2, if_pos c1]
      rw [if_pos c1, if_neg c2] at hb
      omega
    · by_cases c2 : b = resultBlk
      · rw [if_pos c2, if_neg c1]
        rw [if_neg c1, if_pos c2] at hb
        omega
      · rw [if_neg c2, if_neg c1]
        rw [if_neg c1, if_neg c2] at hb
        omega
  · rw [List.forall₂_iff_get]
    have h2 := (List.forall₂_iff_get.1 I.res).2
    refine ⟨by simp [List.length_eraseIdx, hl], ?_⟩
    intro j hj1 hj2
    simp only [List.get_eq_getElem, List.getElem_eraseIdx]
    split
    · exact h2 j (by rw [List.length_eraseIdx] at hj1; split at hj1 <;> omega)
        (by rw [List.length_eraseIdx] at hj2; split at hj2 <;> omega)
    · exact h2 (j + 1) (by rw [List.length_eraseIdx] at hj1; split at hj1 <;> omega)
        (by rw [List.length_eraseIdx] at hj2; split at hj2 <;> omega)

theorem session_spec (h0 : Heap) (hav : ∀ k b, h0.av k b = true) (ops : List SOp) : ∀ (kept : List Kept)
    (texts : List (List Nat)) (h : Heap), SInv h0 kept texts h → (∀ o ∈ ops, o.Good) → ∀ final, SOp.specs texts ops = some final →
    ∃ kept' h', SOp.execs kept ops h = (.ok kept', h') ∧ SInv h0 kept' final h' := by
  induction ops with
  | nil =>
    intro kept texts h I _ final hf
    simp only [SOp.specs, Option.some.injEq] at hf
    subst hf
    exact ⟨kept, h, rfl, I⟩
  | cons o os ih =>
    intro kept texts h I hg final hf
    have hg' := fun o ho => hg o (List.mem_cons_of_mem _ ho)
    cases o with
    | call w T s freeT =>
      obtain ⟨k1, h1, e1, I1⟩ := call_session h0 hav I w T s freeT (hg _ List.mem_cons_self)
      obtain ⟨k2, h2, e2, I2⟩ := ih k1 _ h1 I1 hg' final hf
      exact ⟨k2, h2, by rw [SOp.execs, H.bind_def, e1]; exact e2, I2⟩
    | release i =>
      simp only [SOp.specs] at hf
      split at hf
      · rename_i hi
        obtain ⟨k1, h1, e1, I1⟩ := release_session I i hi
        obtain ⟨k2, h2, e2, I2⟩ := ih k1 _ h1 I1 hg' final hf
        exact ⟨k2, h2, by rw [SOp.execs, H.bind_def, e1]; exact e2, I2⟩
      · cases hf

/-- **C62** every history of good calls and releases, with or without `free_T`, with any contents of fresh memory for each
call, results kept for any time and released in any order, while memory does not run out: no action faults or throws, the
results held at the end are the transforms of their texts, and the heap is the initial heap plus exactly the two blocks of
each result still held. (As every prefix of a history is a history, this holds at every moment.) -/
theorem C62_history_of_calls (h : Heap) (hav : ∀ k b, h.av k b = true) (ops : List SOp) (hg : ∀ o ∈ ops, o.Good)
    (texts : List (List Nat)) (hs : SOp.specs [] ops = some texts) :
    ∃ kept h', SOp.execs [] ops h = (.ok kept, h') ∧ List.Forall₂ KeptOK kept texts ∧
      ∀ b, h'.live b = h.live b + resultBlocks texts b := by
  obtain ⟨kept, h', e, I⟩ := session_spec h hav ops [] [] h ⟨rfl, rfl, fun b => by simp [resultBlocks], .nil⟩ hg texts hs
  exact ⟨kept, h', e, I.res, I.live⟩

/-- **C62** when everything has been released, the heap is exactly the initial heap: no leak accumulates. -/
theorem C62_no_accumulated_leak (h : Heap) (hav : ∀ k b, h.av k b = true) (ops : List SOp) (hg : ∀ o ∈ ops, o.Good)
    (hs : SOp.specs [] ops = some []) :
    ∃ h', SOp.execs [] ops h = (.ok [], h') ∧ ∀ b, h'.live b = h.live b := by
  obtain ⟨kept, h', e, hk, hl⟩ := C62_history_of_calls h hav ops hg [] hs
  cases hk
  exact ⟨h', e, fun b => by rw [hl b]; simp [resultBlocks]⟩

example (sj : BitVec 64) : ∃ kept h', SOp.execs []
    [.call (bananaWorld sj) (cString banana) banana true, .call (bananaWorld sj) (cString banana) banana false, .release 0] bananaHeap =
      (.ok kept, h') ∧ List.Forall₂ KeptOK kept [banana] ∧ ∀ b, h'.live b = bananaHeap.live b + resultBlocks [banana] b :=
  C62_history_of_calls bananaHeap (fun _ _ => rfl) _
    (by
      intro o ho
      simp only [List.mem_cons, List.not_mem_nil, or_false] at ho
      rcases ho with rfl | rfl | rfl
      · exact banana_good
      · exact banana_good
      · trivial) [banana] rfl

example (sj : BitVec 64) : ∃ h', SOp.execs []
    [.call (bananaWorld sj) (cString banana) banana true, .call (bananaWorld sj) (cString banana) banana false, .release 1,
      .release 0] bananaHeap = (.ok [], h') ∧ ∀ b, h'.live b = bananaHeap.live b :=
  C62_no_accumulated_leak bananaHeap (fun _ _ => rfl) _
    (by
      intro o ho
      simp only [List.mem_cons, List.not_mem_nil, or_false] at ho
      rcases ho with rfl | rfl | rfl | rfl
      · exact banana_good
      · exact banana_good
      · trivial
      · trivial) rfl

end Flbwt
