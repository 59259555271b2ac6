import Verif.Instances
import Verif.PropsConcFile
import Verif.PropsConc
import Verif.PropsLimit
import Verif.PropsLost
import Verif.PropsMirror
import Verif.PropsCopy
import Verif.PropsTime2
import Verif.PropsFit
import Verif.PropsPtr
import Verif.PropsMisuse
import Verif.PropsWidth
import Verif.PropsQueueExc
import Verif.PropsEnd

/-!
# Instances: the theorems about memory, time and concurrency applied to concrete calls
-/

namespace Flbwt

open TM

/-! ## Memory -/

/-- C46: a heap that gives at most 1000 bytes for the table -/
example (sj : BitVec 64) : bwtString ((bananaWorld sj).limited 1000) (some (cString banana)) 6 true =
      bwtString ((bananaWorld sj).limited 40000000) (some (cString banana)) 6 true ∨
    bwtString ((bananaWorld sj).limited 1000) (some (cString banana)) 6 true = .error (.ub .nullDeref) :=
  C46_same_or_null (bananaWorld sj) 1000 40000000 (by decide) _ _ _

/-- C47: after the call and the release of its result the caller's block is the only one -/
example (sj : BitVec 64) : ∃ h', (bwtStringH (bananaWorld sj) (some (cString banana)) 6 true >>= fun _ => releaseResultH 6) bananaHeap = (.ok (), h') ∧
    h'.live ⟨.text, 7⟩ = 0 ∧ h'.live ⟨.buf, 100⟩ = 1 ∧ h'.live ⟨.bwt, 7⟩ = 0 := by
  obtain ⟨h', e, h⟩ := C47_release_restores (bananaWorld sj) (T := cString banana) (s := banana) banana_good true bananaHeap bananaHeap_owned
    (fun _ _ => rfl)
  refine ⟨h', e, ?_, ?_, ?_⟩
  · simpa [bananaHeap, cString, banana] using h ⟨.text, 7⟩
  · simpa [bananaHeap, cString, banana] using h ⟨.buf, 100⟩
  · simpa [bananaHeap, cString, banana] using h ⟨.bwt, 7⟩

/-- C48: whatever is refused, the call returns the transform or reports the failure; the fourth request refused -/
example (sj : BitVec 64) (av : Nat → Blk → Bool) :
    (∃ r T' h', bwtStringH (bananaWorld sj) (some (cString banana)) 6 true { bananaHeap with av := av } = (.ok (some r, T'), h') ∧ r.last = 4) ∨
    (∃ e h', bwtStringH (bananaWorld sj) (some (cString banana)) 6 true { bananaHeap with av := av } = (.error e, h') ∧
      (e = .badAlloc ∨ e = .prog (.ub .nullDeref)) ∧ ∃ k b, av k b = false) := by
  rcases C48_every_allocation_failure (bananaWorld sj) (T := cString banana) (s := banana) banana_good true { bananaHeap with av := av }
    bananaHeap_owned with ⟨r, T', h', e, e', _⟩ | ⟨x, h', e, h1, _, h2⟩
  · refine Or.inl ⟨r, T', h', e, ?_⟩
    obtain ⟨r', o, e2, _, h⟩ := C01_bwt_string_correct (bananaWorld sj) (T := cString banana) (s := banana) banana_good true
    rw [e'] at e2
    injection e2 with e2; injection e2 with e2 _; injection e2 with e2
    subst e2
    exact (h.unique banana_bwt).1
  · exact Or.inr ⟨x, h', e, h1, h2⟩
example (sj : BitVec 64) : bwtStringH (bananaWorld sj) none 6 true bananaHeap = (.error (.prog (.throw .invalidArgument)), bananaHeap) :=
  C48_rejected_call _ _ _ _ _ (Or.inl rfl)

/-- C49: two failures with the same exception; in one the text is still there, in the other it is gone -/
example (sj : BitVec 64) : (∃ av h', bwtStringH (bananaWorld sj) (some (cString banana)) 6 true { bananaHeap with av := av } =
      (.error .badAlloc, h') ∧ h'.live ⟨.text, 7⟩ = 1) ∧
    (∃ av h', bwtStringH (bananaWorld sj) (some (cString banana)) 6 true { bananaHeap with av := av } =
      (.error .badAlloc, h') ∧ h'.live ⟨.text, 7⟩ = 0) := by
  obtain ⟨⟨a, h1, e1, g1⟩, ⟨b, h2, e2, g2⟩⟩ := C49_bad_alloc_ambiguous (bananaWorld sj) (T := cString banana) (s := banana) banana_good bananaHeap
    bananaHeap_owned
  exact ⟨⟨a, h1, e1, (g1 7).trans (by decide)⟩, ⟨b, h2, e2, (g2 7).trans (by decide)⟩⟩

/-- C50: less than 71 MB -/
example (sj : BitVec 64) : ∃ r h', bwtStringH (bananaWorld sj) (some (cString banana)) 6 true bananaHeap = (.ok r, h') ∧ h'.peak ≤ 70600455 := by
  obtain ⟨r, T', h', e, _⟩ := C47_no_leak (bananaWorld sj) (T := cString banana) (s := banana) banana_good true bananaHeap bananaHeap_owned
    (fun _ _ => rfl)
  exact ⟨_, h', e, Nat.le_trans (C50_linear_memory (bananaWorld sj) (T := cString banana) (s := banana) banana_good true bananaHeap
    bananaHeap_owned e) (by decide)⟩
example : (arrBlks S40 .sa 10).map (·.bytes) = [40, 10] := by
  rw [(C50_array_bytes .sa 10 (fun _ => 0)).2.1]; rfl

/-- C51: a failed call keeps the container, unless that was refused -/
example (sj : BitVec 64) {e : HErr} {h' : Heap} (hx : bwtStringH (bananaWorld sj) (some (cString banana)) 6 true
    { bananaHeap with av := fun k _ => decide (k < 9) } = (.error e, h')) : h'.live ⟨.container, 12472⟩ = 1 := by
  rcases C51_failure_leaks (bananaWorld sj) (T := cString banana) (s := banana) banana_good true
    { bananaHeap with av := fun k _ => decide (k < 9) } bananaHeap_owned hx with ⟨h, _⟩ | ⟨_, h⟩
  · exact absurd h (by decide)
  · exact h.trans (by decide)

/-- C83: without the caller's block the call does the same -/
example (sj : BitVec 64) (av : Nat → Blk → Bool) :
    (bwtStringH (bananaWorld sj) (some (cString banana)) 6 true { bananaHeap with av := av }).1 =
      (bwtStringH (bananaWorld sj) (some (cString banana)) 6 true
        { bananaHeap with av := av, live := fun b => if b = ⟨.text, 7⟩ then 1 else 0 }).1 :=
  (C83_outcome_independent_of_other_memory (bananaWorld sj) (T := cString banana) (s := banana) banana_good true { bananaHeap with av := av }
    (fun b => if b = ⟨.text, 7⟩ then 1 else 0) bananaHeap_owned (fun _ => ⟨by show (1 : Nat) ≤ 1; omega, by show (7 : Nat) ≤ 107; omega⟩)).1
/-- refusals that lie behind the call do no harm -/
example (sj : BitVec 64) {e : HErr} {h' : Heap} (hx : bwtStringH (bananaWorld sj) (some (cString banana)) 6 true
    { bananaHeap with av := fun k _ => decide (k < 1000) } = (.error e, h')) : 1000 < h'.reqs := by
  obtain ⟨k, b, _, h1, h2⟩ := C83_fails_only_by_own_request (bananaWorld sj) (T := cString banana) (s := banana) banana_good true
    { bananaHeap with av := fun k _ => decide (k < 1000) } bananaHeap_owned hx
  have := of_decide_eq_false h2
  omega
/-- the five requests before the call were refused -/
example (sj : BitVec 64) : ∃ r T' h', bwtStringH (bananaWorld sj) (some (cString banana)) 6 true
    { bananaHeap with av := fun k _ => decide (5 ≤ k) } = (.ok (some r, T'), h') ∧ r.last = 4 := by
  obtain ⟨r, T', h', e, h, _⟩ := C83_memory_available_again (bananaWorld sj) (T := cString banana) (s := banana) banana_good true
    { bananaHeap with av := fun k _ => decide (5 ≤ k) } bananaHeap_owned (fun k _ hk => decide_eq_true hk)
  exact ⟨r, T', h', e, (h.unique banana_bwt).1⟩
/-- a call with a null pointer, and a thousand blocks more -/
example (sj : BitVec 64) : (bwtStringH (bananaWorld sj) none 6 true { bananaHeap with live := fun b => bananaHeap.live b + 1000 }).1 =
    .error (.prog (.throw .invalidArgument)) := by
  have e := C48_rejected_call (bananaWorld sj) none 6 true bananaHeap (Or.inl rfl)
  refine (C83_any_call (bananaWorld sj) none 6 true bananaHeap { bananaHeap with live := fun b => bananaHeap.live b + 1000 }
    (fun b => Nat.le_add_right _ _) rfl (by rw [e]; simp)).1.trans ?_
  rw [e]

/-- C84: one call and one file, unlimited memory -/
example (sj : BitVec 64) (hf : (COp.execs ⟨[], []⟩ [.call (bananaWorld sj) (cString banana) banana true, .file niceWorld niceHost "in" "out" banana]
      niceState).2.heap.failed = niceState.heap.failed) :
    ∃ c s', COp.execs ⟨[], []⟩ [.call (bananaWorld sj) (cString banana) banana true, .file niceWorld niceHost "in" "out" banana] niceState =
      (.ok c, s') ∧ s'.heap.live ⟨.bwt, 7⟩ = 1 := by
  obtain ⟨c, s', e, _, h⟩ := C84_no_failure_no_leak niceState
    [.call (bananaWorld sj) (cString banana) banana true, .file niceWorld niceHost "in" "out" banana] (by
      intro o ho
      simp only [List.mem_cons, List.not_mem_nil, or_false] at ho
      rcases ho with rfl | rfl
      · exact someHistory_good sj _ (by simp [someHistory])
      · exact someHistory_good sj _ (by simp [someHistory])) (by
      intro o ho
      simp only [List.mem_cons, List.not_mem_nil, or_false] at ho
      rcases ho with rfl | rfl
      · trivial
      · exact rfl) hf
  exact ⟨c, s', e, (h ⟨.bwt, 7⟩).trans rfl⟩

/-- C85 -/
example (sj : BitVec 64) (av : Nat → Blk → Bool) {r h'}
    (e : bwtStringH (bananaWorld sj) (some (cString banana)) 6 true { bananaHeap with av := av } = (.ok r, h')) : ∃ b, r.1 = some b ∧ b.last = 4 := by
  obtain ⟨r', T', h2, e2, h, _⟩ := C47_no_leak (bananaWorld sj) (T := cString banana) (s := banana) banana_good true bananaHeap bananaHeap_owned
    (fun _ _ => rfl)
  have := C85_two_heaps (bananaWorld sj) (some (cString banana)) 6 true e e2
  subst this
  exact ⟨r', rfl, (h.unique banana_bwt).1⟩
example (sj : BitVec 64) : ∃ r, (bwtStringH (bananaWorld sj) (some (cString banana)) 6 true bananaHeap).1 = .ok r ∧
    bwtString (bananaWorld sj) (some (cString banana)) 6 true = .ok r := by
  obtain ⟨r, T', h', e, _⟩ := C47_no_leak (bananaWorld sj) (T := cString banana) (s := banana) banana_good true bananaHeap bananaHeap_owned
    (fun _ _ => rfl)
  have e' : (bwtStringH (bananaWorld sj) (some (cString banana)) 6 true bananaHeap).1 = .ok (some r, T') := congrArg Prod.fst e
  rcases C85_unlimited (bananaWorld sj) (some (cString banana)) 6 true bananaHeap (fun _ _ => rfl) with h | ⟨x, h, _⟩ | h
  · exact h
  · rw [e'] at h; cases h
  · rw [e'] at h; cases h

/-- C86: the second request is refused -/
example : ∃ res q h', QOp.triesX 0 [.enqueue 3, .enqueueL 4, .dequeue] (Queue.new 9 fun _ _ => 77) secondRefused = (.ok res, q, h') ∧
    ∃ final, QOp.after [.enqueue 3, .enqueueL 4, .dequeue] res [] = some final ∧ (q.isEmpty = true ↔ final = []) := by
  have h := C86_queue_survives_bad_alloc 9 (fun _ _ => 77) 0 [.enqueue 3, .enqueueL 4, .dequeue] secondRefused (by decide) (by decide)
    (by intro o ho; simp at ho; rcases ho with rfl | rfl | rfl <;> simp [QOp.fits]) (by decide)
  have e : (QOp.triesX 0 [.enqueue 3, .enqueueL 4, .dequeue] (Queue.new 9 fun _ _ => 77) secondRefused).1 = .ok [.refused, .stored, .got 4] := by rfl
  generalize QOp.triesX 0 [.enqueue 3, .enqueueL 4, .dequeue] (Queue.new 9 fun _ _ => 77) secondRefused = x at h e
  obtain ⟨a, q, h'⟩ := x
  simp only at e
  subst e
  obtain ⟨final, _, h1, h2, _⟩ := h
  exact ⟨_, q, h', rfl, final, h1, h2⟩

/-- C89: the text of 7 bytes is gone, 23 bytes are there instead -/
example (sj : BitVec 64) : ∃ r h', bwtStringH (bananaWorld sj) (some (cString banana)) 6 true bananaHeap = (.ok r, h') ∧ h'.total = 107 - 7 + 23 := by
  obtain ⟨r, T', h', e, _⟩ := C47_no_leak (bananaWorld sj) (T := cString banana) (s := banana) banana_good true bananaHeap bananaHeap_owned
    (fun _ _ => rfl)
  have h : h'.total + 7 = 107 + 6 + 17 := (C89_return (bananaWorld sj) (T := cString banana) (s := banana) banana_good true bananaHeap bananaHeap_owned e).1
  exact ⟨_, h', e, by omega⟩
example : ∃ s', bwtFileH niceWorld niceHost "in" "out" niceState = (.ok (), s') ∧ s'.heap.total = 107 := by
  obtain ⟨b, s', e, _⟩ := C57_unlimited (out := "out") (niceH_call niceState rfl) rfl nice_takes (fun _ _ => rfl)
  exact ⟨s', e, C89_file_return (niceH_call niceState rfl) e⟩

/-! ## Time -/

/-- C53: at most 277453 steps -/
example (sj : BitVec 64) : ∃ r T' c, bwtStringT (bananaWorld sj) 1 (some (cString banana)) 6 true = .ok ((some r, T'), c) ∧ c ≤ 277453 ∧
    bwtString (bananaWorld sj) (some (cString banana)) 6 true = .ok (some r, T') := by
  obtain ⟨r, T', c, e, _, h⟩ := C53_quadratic (bananaWorld sj) (T := cString banana) (s := banana) banana_good true
  refine ⟨r, T', c, e, Nat.le_trans h (by decide), ?_⟩
  rw [← C53_counts_the_model (bananaWorld sj) 1, show (6 : Nat) = banana.length from rfl, e]
  rfl

/-- C52: a string of 67134 bytes with 998000 collisions -/
example : ∃ s : List Nat, s.length = 67134 ∧ ∀ (junk : Fresh) (sorter : Sorter) (T : Mem Nat), GoodCall junk sorter T s →
    ∃ ct ht, extractLMS junk T s.length = .ok ct ∧ ct.hashtable = some ht ∧ 499500 ≤ ht.collisions := by
  obtain ⟨s, h1, _, _, h⟩ := C52_quadratic_searches 1000 (by decide)
  refine ⟨s, h1, fun junk sorter T g => ?_⟩
  obtain ⟨ct, ht, e1, e2, h⟩ := h junk sorter T g
  exact ⟨ct, ht, e1, e2, by omega⟩

/-- C82 -/
example (sj : BitVec 64) : ∃ r c, bwtStringR (bananaWorld sj) (some (cString banana)) 6 true = .ok ((some r, none), c) ∧ r.last = 4 := by
  obtain ⟨r, c, e, _, h, _⟩ := C82_copied_quadratic (bananaWorld sj) (T := cString banana) (s := banana) banana_good true
  exact ⟨r, c, e, (h.unique banana_bwt).1⟩
example : ∃ s : List Nat, s.length = 6834 ∧ ∀ (w : World) (T : Mem Nat) (freeT : Bool), GoodCall w.junk w.sorter T s →
    ∃ r c, bwtStringR w (some T) s.length freeT = .ok ((some r, release freeT T), c) ∧ 40000 ≤ c := by
  obtain ⟨s, h1, _, _, h⟩ := C82_copied_at_least 100 (by decide)
  exact ⟨s, h1, h⟩

/-! ## Integers, pointers, queues -/

/-- C55 -/
example : (⟨(⟨⟨4, fun _ => 0⟩⟩ : S32), SaStore.fresh 0 (fun _ => 0)⟩ : St S32).st (.sa 0) ((2 : Nat) : Int) (2 ^ 31) = .error (.ub .overflow) :=
  (C55_store_truncates_iff (S := S32) _ 2 (2 ^ 31) (by decide)).2 (by decide)

/-- C56 -/
example (sj : BitVec 64) : bwtStringP (bananaWorld sj) (some (cString banana)) 6 true ≠ .error .stale := C56_no_stale_pointer _ _ _ _
example (ht : HashTable) : HashTable.insertStringP ⟨fun _ => 7, 3000⟩ ⟨ht, 3⟩ (cString banana) 3 1 ≠ .error .stale :=
  C56_insert_no_stale_pointer _ _ _ _ _

/-- C59 -/
example : ∃ junk q, QOp.execs 0 [.enqueue 3, .dequeue, .dequeue] (Queue.new 9 junk) = .ok (q, [3, 500]) :=
  C59_returns_uninitialised 9 0 3 500 (by decide) (by decide) (by decide) (by decide)

/-- C69 -/
example : (Queue.new 0 fun _ _ => 77).enqueue 0 5 = badShift := (Queue.C69_queue_width_zero _ _ _).1

/-- C13 -/
example : (500 : BitVec 64).toInt = 500 := C13_dequeue_value 500 (by decide)

/-! ## Concurrent calls -/

/-- C66: three calls on "banana" end -/
example : ∃ N, ∀ m st, Run bananas bananaMem m st → m ≤ N := C66_terminates bananas bananaMem
example (st : Sys 3) : (∃ r, st.th 1 = .ret r) ∨ ∃ st', Act bananas st 1 st' := C66_no_waiting bananas st 1
/-- C67: with 212 MB no request is refused, whatever the schedule -/
example {m : Nat} {st : Sys 3} (run : RunCap bananas bananaMem 212000000 m st) (i : Fin 3) : st.failed i = 0 := by
  have hc : needed bananas ≤ 212000000 := by simp [needed, bananas, Fin.sum_univ_three, banana, cString]
  exact ((C67_enough_memory_for_all bananas_good bananas_own hc run).2 i).1

/-- C06: the program with the accesses to the text made visible is the program with a heap -/
example (sj : BitVec 64) (h : Heap) : (bwtStringC (bananaWorld sj) false 6 true).run (cString banana) h =
      ((bwtStringH (bananaWorld sj) (some (cString banana)) 6 true h).1.map Prod.fst, (bwtStringH (bananaWorld sj) (some (cString banana)) 6 true h).2) ∧
    TextOk true (bwtStringC (bananaWorld sj) false 6 true) :=
  ⟨(C06_no_access_after_release (bananaWorld sj) 6 true).1 _ _, (C06_no_access_after_release (bananaWorld sj) 6 true).2⟩

/-- C68: at every moment of every schedule -/
example {st} (r : FReach niceJobs niceStart st) : st.files "in" = some banana ∧ st.steps 0 ≤ 24 ∧
    (st.files "a" = none ∨ ∃ bytes m, FileFormat banana bytes ∧ st.files "a" = some (bytes.take m)) ∧
    (st.th 0 = .done (.ok ()) → ∃ bytes, st.files "a" = some bytes ∧ decodeFile bytes = banana) ∧
    (∀ e, st.th 0 = .done (.error e) → st.files "a" = none) :=
  ⟨C68_inputs_kept niceJobs_good niceJobs_apart r 0 (by decide), (C68_bounded niceJobs_good niceJobs_apart r 0).1,
    C68_at_any_moment niceJobs_good niceJobs_apart r 0,
    fun hd => by
      obtain ⟨b, h1, _, h2, _⟩ := C68_concurrent_files niceJobs_good niceJobs_apart r 0 hd
      exact ⟨b, h1, h2⟩,
    fun e hd => (C68_concurrent_errors niceJobs_good niceJobs_apart r 0 hd).2.2⟩
example : ∃ p f, FStep ((FSys.start niceJobs niceStart).th 2) niceStart p f 0 := by
  obtain ⟨p, f, h, _⟩ := C68_no_waiting niceJobs_good niceJobs_apart .start 2 (by intro x h; cases h)
  exact ⟨p, f, h⟩

end Flbwt
