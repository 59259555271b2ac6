import Verif.ConcText
import Mathlib.Logic.Function.Basic
import Mathlib.Algebra.BigOperators.Fin
import Mathlib.Algebra.Order.BigOperators.Group.Finset

/-!
# Several threads that call `bwt_string`

The machine: every thread has its program (`Th`), the blocks it has obtained and not yet released, and a count of the
requests it was refused; `texts a` is the text at the address `a`, `none` if there is none (any more). A step is one action of one
thread, chosen by an arbitrary scheduler; whether a request is granted is an arbitrary choice too (it may depend on the
other threads). What a thread reads of its text is what is at its address at that moment. Releasing a block the thread does not own, accessing or releasing a text that is not there any more ends the
thread with `badFree` (undefined behaviour).

The library has no global variables, so threads influence each other only through the allocator and the texts.
-/

namespace Flbwt

/-- what a call returns. Infrastructure: models no code. -/
abbrev Res := Option BwtResult

/-- A call `bwt_string(T, n, free_T)`: the oracle for its uninitialised memory, the string, what the caller says is in
memory at the address `T`, the argument `free_T`, and the address `T`. The parameters of src/flbwt.cpp:110. -/
structure Call where
  w : World
  s : List Nat
  T : Mem Nat
  freeT : Bool
  addr : Nat

/-- The program of the thread that makes the call; it does not know the text. src/flbwt.cpp:110-118. -/
def Call.prog (c : Call) : Th Res := bwtStringC c.w false c.s.length c.freeT

/-- The state of the machine: what each thread still has to do, the blocks it owns, the requests it was refused, the texts. Infrastructure: models no code. -/
structure Sys (k : Nat) where
  th : Fin k → Th Res
  blocks : Fin k → List Blk
  failed : Fin k → Nat
  texts : Nat → Option (Mem Nat)

variable {k : Nat}

/-- All calls are about to begin; no thread has obtained anything; the memory the callers own is `mem`.
Infrastructure: models no code. -/
def start (cs : Fin k → Call) (mem : Nat → Option (Mem Nat)) : Sys k :=
  { th := fun i => (cs i).prog, blocks := fun _ => [], failed := fun _ => 0, texts := mem }

open Function in
/-- One step, of thread `i`. Infrastructure: models no code. -/
inductive Act (cs : Fin k → Call) : Sys k → Fin k → Sys k → Prop
  | grant (st : Sys k) (i : Fin k) (b : Blk) (p : Bool → Th Res) : st.th i = .req b p →
      Act cs st i { st with th := update st.th i (p true), blocks := update st.blocks i (b :: st.blocks i) }
  | refuse (st : Sys k) (i : Fin k) (b : Blk) (p : Bool → Th Res) : st.th i = .req b p →
      Act cs st i { st with th := update st.th i (p false), failed := update st.failed i (st.failed i + 1) }
  | rel (st : Sys k) (i : Fin k) (b : Blk) (p : Th Res) : st.th i = .rel b p → b ∈ st.blocks i →
      Act cs st i { st with th := update st.th i p, blocks := update st.blocks i ((st.blocks i).erase b) }
  | relBad (st : Sys k) (i : Fin k) (b : Blk) (p : Th Res) : st.th i = .rel b p → b ∉ st.blocks i →
      Act cs st i { st with th := update st.th i (.ret (.error .badFree)) }
  | use (st : Sys k) (i : Fin k) (p : Mem Nat → Th Res) (T : Mem Nat) : st.th i = .use p → st.texts (cs i).addr = some T →
      Act cs st i { st with th := update st.th i (p T) }
  | useBad (st : Sys k) (i : Fin k) (p : Mem Nat → Th Res) : st.th i = .use p → st.texts (cs i).addr = none →
      Act cs st i { st with th := update st.th i (.ret (.error .badFree)) }
  | relT (st : Sys k) (i : Fin k) (p : Th Res) (T : Mem Nat) : st.th i = .relT p → st.texts (cs i).addr = some T →
      Act cs st i { st with th := update st.th i p, texts := update st.texts (cs i).addr none }
  | relTBad (st : Sys k) (i : Fin k) (p : Th Res) : st.th i = .relT p → st.texts (cs i).addr = none →
      Act cs st i { st with th := update st.th i (.ret (.error .badFree)) }

/-- `Run cs mem m st`: the state `st` can be reached in `m` steps. Infrastructure: models no code. -/
inductive Run (cs : Fin k → Call) (mem : Nat → Option (Mem Nat)) : Nat → Sys k → Prop
  | zero : Run cs mem 0 (start cs mem)
  | step (m : Nat) (st st' : Sys k) (i : Fin k) : Run cs mem m st → Act cs st i st' → Run cs mem (m + 1) st'

/-! ## What must hold of a thread for every behaviour of the others -/

namespace Th
variable {α : Type} (T : Mem Nat)

/-- However its requests are answered, the thread releases only blocks it has, and ends in a state with `Q`.
Used in proofs only. -/
def wp (Q : Except HErr α → Heap → Prop) : Th α → Heap → Prop
  | .ret r, h => Q r h
  | .req b p, h => (p true).wp Q (h.got b) ∧ (p false).wp Q h.refused
  | .rel b p, h => 1 ≤ h.live b ∧ p.wp Q (h.sub b)
  | .use p, h => (p T).wp Q h
  | .relT p, h => 1 ≤ h.live ⟨.text, T.size⟩ ∧ p.wp Q (h.sub ⟨.text, T.size⟩)

/-- the heap with another schedule. Used in proofs only. -/
def _root_.Flbwt.Heap.withAv (h : Heap) (a : Nat → Blk → Bool) : Heap := { h with av := a }

/-- a run depends only on the answers to the requests still to come -/
theorem run_congr (p : Th α) : ∀ (h : Heap) (a a' : Nat → Blk → Bool), (∀ k b, h.reqs ≤ k → a k b = a' k b) →
    (p.run T (h.withAv a)).1 = (p.run T (h.withAv a')).1 ∧
    ∀ x, (p.run T (h.withAv a)).2.withAv x = (p.run T (h.withAv a')).2.withAv x := by
  induction p with
  | ret r => intro h a a' ha; exact ⟨rfl, fun x => rfl⟩
  | req b p ih =>
    intro h a a' ha
    have e : a h.reqs b = a' h.reqs b := ha _ _ (Nat.le_refl _)
    simp only [Th.run]
    by_cases c : a h.reqs b = true
    · have c' : a' h.reqs b = true := e ▸ c
      rw [if_pos (show (h.withAv a).av (h.withAv a).reqs b = true from c),
        if_pos (show (h.withAv a').av (h.withAv a').reqs b = true from c')]
      exact ih true (h.got b) a a' (fun k b hk => ha k b (by simp only [Heap.got, Heap.add] at hk; omega))
    · have c' : ¬ a' h.reqs b = true := e ▸ c
      rw [if_neg (show ¬ (h.withAv a).av (h.withAv a).reqs b = true from c),
        if_neg (show ¬ (h.withAv a').av (h.withAv a').reqs b = true from c')]
      exact ih false h.refused a a' (fun k b hk => ha k b (by simp only [Heap.refused] at hk; omega))
  | rel b p ih =>
    intro h a a' ha
    simp only [Th.run]
    by_cases c : 1 ≤ h.live b
    · rw [if_pos (show 1 ≤ (h.withAv a).live b from c), if_pos (show 1 ≤ (h.withAv a').live b from c)]
      exact ih (h.sub b) a a' ha
    · rw [if_neg (show ¬ 1 ≤ (h.withAv a).live b from c), if_neg (show ¬ 1 ≤ (h.withAv a').live b from c)]
      exact ⟨rfl, fun x => rfl⟩
  | use p ih => intro h a a' ha; exact ih T h a a' ha
  | relT p ih =>
    intro h a a' ha
    simp only [Th.run]
    by_cases c : 1 ≤ h.live ⟨.text, T.size⟩
    · rw [if_pos (show 1 ≤ (h.withAv a).live ⟨.text, T.size⟩ from c), if_pos (show 1 ≤ (h.withAv a').live ⟨.text, T.size⟩ from c)]
      exact ih (h.sub ⟨.text, T.size⟩) a a' ha
    · rw [if_neg (show ¬ 1 ≤ (h.withAv a).live ⟨.text, T.size⟩ from c), if_neg (show ¬ 1 ≤ (h.withAv a').live ⟨.text, T.size⟩ from c)]
      exact ⟨rfl, fun x => rfl⟩

/-- What holds of the thread alone, for every schedule of refusals fixed in advance, holds for refusals chosen step by step. -/
theorem wp_of_run {Q : Except HErr α → Heap → Prop} (hQ : ∀ h, ¬ Q (.error .badFree) h)
    (hav : ∀ r h h', h.withAv (fun _ _ => true) = h'.withAv (fun _ _ => true) → Q r h → Q r h') (p : Th α) :
    ∀ h : Heap, (∀ a, Q (p.run T (h.withAv a)).1 (p.run T (h.withAv a)).2) → p.wp T Q h := by
  induction p with
  | ret r => intro h H; exact hav _ (h.withAv fun _ _ => true) _ rfl (H (fun _ _ => true))
  | req b p ih =>
    intro h H
    constructor
    · refine ih true _ fun a => ?_
      have h1 := H (fun k c => if k = h.reqs then true else a k c)
      simp only [Th.run] at h1
      rw [if_pos (show (h.withAv (fun k c => if k = h.reqs then true else a k c)).av
        (h.withAv (fun k c => if k = h.reqs then true else a k c)).reqs b = true by simp [Heap.withAv])] at h1
      obtain ⟨e1, e2⟩ := run_congr T (p true) (h.got b) (fun k c => if k = h.reqs then true else a k c) a
        (fun k c hk => by rw [if_neg (by simp only [Heap.got, Heap.add] at hk; omega)])
      rw [← e1]
      exact hav _ _ _ (e2 _) h1
    · refine ih false _ fun a => ?_
      have h1 := H (fun k c => if k = h.reqs then false else a k c)
      simp only [Th.run] at h1
      rw [if_neg (show ¬ (h.withAv (fun k c => if k = h.reqs then false else a k c)).av
        (h.withAv (fun k c => if k = h.reqs then false else a k c)).reqs b = true by simp [Heap.withAv])] at h1
      obtain ⟨e1, e2⟩ := run_congr T (p false) h.refused (fun k c => if k = h.reqs then false else a k c) a
        (fun k c hk => by rw [if_neg (by simp only [Heap.refused] at hk; omega)])
      rw [← e1]
      exact hav _ _ _ (e2 _) h1
  | rel b p ih =>
    intro h H
    by_cases c : 1 ≤ h.live b
    · refine ⟨c, ih _ fun a => ?_⟩
      have h1 := H a
      simp only [Th.run] at h1
      rwa [if_pos (show 1 ≤ (h.withAv a).live b from c)] at h1
    · have h1 := H (fun _ _ => true)
      simp only [Th.run] at h1
      rw [if_neg (show ¬ 1 ≤ (h.withAv fun _ _ => true).live b from c)] at h1
      exact absurd h1 (hQ _)
  | use p ih => intro h H; exact ih T h H
  | relT p ih =>
    intro h H
    by_cases c : 1 ≤ h.live ⟨.text, T.size⟩
    · refine ⟨c, ih _ fun a => ?_⟩
      have h1 := H a
      simp only [Th.run] at h1
      rwa [if_pos (show 1 ≤ (h.withAv a).live ⟨.text, T.size⟩ from c)] at h1
    · have h1 := H (fun _ _ => true)
      simp only [Th.run] at h1
      rw [if_neg (show ¬ 1 ≤ (h.withAv fun _ _ => true).live ⟨.text, T.size⟩ from c)] at h1
      exact absurd h1 (hQ _)

/-- If from now on all requests are granted, the thread ends, and no more requests have failed. -/
theorem wp_end {Q : Except HErr α → Heap → Prop} (p : Th α) : ∀ h : Heap, p.wp T Q h →
    ∃ r h', Q r h' ∧ h'.failed = h.failed ∧ h.peak ≤ h'.peak := by
  induction p with
  | ret r => intro h H; exact ⟨r, h, H, rfl, Nat.le_refl _⟩
  | req b p ih =>
    intro h H
    obtain ⟨r, h', q, f, pk⟩ := ih true _ H.1
    exact ⟨r, h', q, f, Nat.le_trans (Nat.le_max_left _ _) pk⟩
  | rel b p ih => intro h H; exact ih (h.sub b) H.2
  | use p ih => intro h H; exact ih T _ H
  | relT p ih => intro h H; exact ih (h.sub ⟨.text, T.size⟩) H.2

/-- the largest number of steps the thread can make with the text `T`, or without a text. Used in proofs only. -/
def depth (T : Option (Mem Nat)) : Th α → Nat
  | .ret _ => 0
  | .req _ p => max ((p true).depth T) ((p false).depth T) + 1
  | .rel _ p => p.depth T + 1
  | .use p => match T with
    | some X => (p X).depth T + 1
    | none => 1
  | .relT p => p.depth T + 1

end Th

/-- bytes in a list of blocks. Used in proofs only. -/
def bytesOf (l : List Blk) : Nat := (l.map Blk.bytes).sum

theorem bytesOf_erase {l : List Blk} {b : Blk} (h : b ∈ l) : bytesOf (l.erase b) + b.bytes = bytesOf l := by
  have := (List.perm_cons_erase h).map Blk.bytes
  have := this.sum_eq
  simp only [List.map_cons, List.sum_cons] at this
  unfold bytesOf
  omega

end Flbwt
