import Verif.ConcMachine
import Verif.PropsHeap

/-!
# Properties C66 and C67: several threads call `bwt_string` at the same time

See `ConcMachine.lean` for the machine. `Run cs mem m st`: the state `st` can be reached in `m` steps when thread `i` makes the
call `cs i` and the texts are in the memory `mem`.
-/

namespace Flbwt

variable {k : Nat}

/-- The arguments of every call are as C01 wants them, and the text is where the call says. -/
def GoodCalls (cs : Fin k → Call) (mem : Nat → Option (Mem Nat)) : Prop :=
  ∀ i, mem (cs i).addr = some (cs i).T ∧ GoodCall (cs i).w.junk (cs i).w.sorter (cs i).T (cs i).s

/-- A text that a call is to release is not the text of another call. (Texts that nobody releases may be shared.) -/
def OwnTexts (cs : Fin k → Call) : Prop := ∀ i j, i ≠ j → (cs i).freeT = true → (cs i).addr ≠ (cs j).addr

namespace Conc

/-- the heap of a thread at the beginning: only its text, if it is to release it -/
def heap0 (c : Call) : Heap :=
  { av := fun _ _ => true, reqs := 0, failed := 0
    live := fun b => if c.freeT = true ∧ b = ⟨.text, c.T.size⟩ then 1 else 0
    total := if c.freeT then c.T.size else 0
    peak := if c.freeT then c.T.size else 0 }

/-- bytes a call may use -/
def budget (c : Call) : Nat := (if c.freeT then c.T.size else 0) + 58 * c.s.length + 70600000

/-- how a call ends -/
def Ends (c : Call) (r : Except HErr Res) (h : Heap) : Prop :=
  (∃ b, r = .ok (some b) ∧ IsBWT c.s b.bwt.data b.last ∧ h.failed = 0 ∧
    OnlyResultAdded c.freeT c.T c.s.length (heap0 c) h ∧ h.peak ≤ budget c) ∨
  (∃ e, r = .error e ∧ (e = .badAlloc ∨ e = .prog (.ub .nullDeref)) ∧ 0 < h.failed)

theorem ends_av {c : Call} {r : Except HErr Res} {h h' : Heap}
    (e : h.withAv (fun _ _ => true) = h'.withAv (fun _ _ => true)) (q : Ends c r h) : Ends c r h' := by
  have e1 : h.failed = h'.failed := by have := congrArg Heap.failed e; exact this
  have e2 : h.live = h'.live := by have := congrArg Heap.live e; exact this
  have e3 : h.peak = h'.peak := by have := congrArg Heap.peak e; exact this
  unfold Ends OnlyResultAdded at *
  rwa [← e1, ← e2, ← e3]

theorem ends_alone {c : Call} (g : GoodCall c.w.junk c.w.sorter c.T c.s) (a : Nat → Blk → Bool) :
    Ends c (c.prog.run c.T ((heap0 c).withAv a)).1 (c.prog.run c.T ((heap0 c).withAv a)).2 := by
  unfold Call.prog
  rw [run_bwtString]
  have ht : TextOwned c.freeT c.T ((heap0 c).withAv a) := by
    intro hf
    simp [Heap.withAv, heap0, hf]
  obtain ⟨r0, e0, _, hr0⟩ := bwtString_good c.w g c.freeT
  rcases C48_every_allocation_failure c.w g c.freeT _ ht with ⟨r, T', h', e1, e2, hf, _, ho⟩ | ⟨e, h', e1, he, hf, _⟩
  · rw [e0] at e2
    have e3 : (some r0, release c.freeT c.T) = (some r, T') := by injection e2
    simp only [Prod.mk.injEq, Option.some.injEq] at e3
    obtain ⟨e4, e5⟩ := e3
    subst e4; subst e5
    rw [H.bind_def, e1]
    refine Or.inl ⟨r0, rfl, hr0, hf, ho, ?_⟩
    have := C50_linear_memory c.w g c.freeT _ ht e1
    refine Nat.le_trans this ?_
    simp only [Heap.withAv, heap0, budget]
    omega
  · rw [H.bind_def, e1]
    exact Or.inr ⟨e, rfl, he, by simpa [Heap.withAv, heap0] using hf⟩

theorem wp_start {c : Call} (g : GoodCall c.w.junk c.w.sorter c.T c.s) : c.prog.wp c.T (Ends c) (heap0 c) := by
  refine Th.wp_of_run c.T (Q := Ends c) ?_ (fun r h h' e q => ends_av e q) c.prog (heap0 c) (fun a => ends_alone g a)
  rintro h (⟨b, e, _⟩ | ⟨e, e1, e2, _⟩)
  · cases e
  · cases e1
    rcases e2 with e2 | e2 <;> cases e2

/-- The blocks and the text of a thread, against the heap it would have alone. -/
structure Own (c : Call) (p : Th Res) (blocks : List Blk) (failed : Nat) (text : Option (Mem Nat)) (h : Heap) : Prop where
  wp : p.wp c.T (Ends c) h
  failed : h.failed = failed
  peak : h.total ≤ h.peak
  phase : (TextOk c.freeT p ∧ text = some c.T ∧
      (∀ b, h.live b = blocks.count b + if c.freeT = true ∧ b = ⟨.text, c.T.size⟩ then 1 else 0) ∧
      h.total = bytesOf blocks + if c.freeT then c.T.size else 0) ∨
    (c.freeT = true ∧ Quiet p ∧ text = none ∧ (∀ b, h.live b = blocks.count b) ∧ h.total = bytesOf blocks)

/-- invariant -/
def Inv (cs : Fin k → Call) (st : Sys k) : Prop :=
  ∀ i, ∃ h, Own (cs i) (st.th i) (st.blocks i) (st.failed i) (st.texts (cs i).addr) h

theorem inv_start {cs : Fin k → Call} {mem : Nat → Option (Mem Nat)} (g : GoodCalls cs mem) : Inv cs (start cs mem) := by
  intro i
  refine ⟨heap0 (cs i), wp_start (g i).2, rfl, Nat.le_refl _, Or.inl ⟨textOk_bwtString _ _ _ _, (g i).1, fun b => ?_, ?_⟩⟩
  · simp [start, heap0]
  · simp [start, heap0, bytesOf]

theorem Own.grant {c : Call} {b : Blk} {p : Bool → Th Res} {l : List Blk} {f : Nat} {t : Option (Mem Nat)} {h : Heap}
    (o : Own c (.req b p) l f t h) : Own c (p true) (b :: l) f t (h.got b) := by
  refine ⟨o.wp.1, o.failed, Nat.le_max_right _ _, ?_⟩
  have hl : ∀ x, (h.got b).live x = h.live x + (if b == x then 1 else 0) := by
    intro x
    simp only [Heap.got, Heap.add, beq_iff_eq, eq_comm (a := b)]
    split <;> omega
  rcases o.phase with ⟨tx, ht, hv, hb⟩ | ⟨hf, q, ht, hv, hb⟩
  · cases tx with
    | req _ _ tx =>
      refine Or.inl ⟨tx true, ht, fun x => ?_, ?_⟩
      · rw [hl, hv, List.count_cons]; omega
      · simp only [Heap.got, Heap.add, hb, bytesOf, List.map_cons, List.sum_cons]; omega
  · cases q with
    | req _ _ q =>
      refine Or.inr ⟨hf, q true, ht, fun x => ?_, ?_⟩
      · rw [hl, hv, List.count_cons]
      · simp only [Heap.got, Heap.add, hb, bytesOf, List.map_cons, List.sum_cons]; omega

theorem Own.refuse {c : Call} {b : Blk} {p : Bool → Th Res} {l : List Blk} {f : Nat} {t : Option (Mem Nat)} {h : Heap}
    (o : Own c (.req b p) l f t h) : Own c (p false) l (f + 1) t h.refused := by
  refine ⟨o.wp.2, by simp [Heap.refused, o.failed], o.peak, ?_⟩
  rcases o.phase with ⟨tx, ht, hv, hb⟩ | ⟨hf, q, ht, hv, hb⟩
  · cases tx with
    | req _ _ tx => exact Or.inl ⟨tx false, ht, hv, hb⟩
  · cases q with
    | req _ _ q => exact Or.inr ⟨hf, q false, ht, hv, hb⟩

theorem Own.mem {c : Call} {b : Blk} {p : Th Res} {l : List Blk} {f : Nat} {t : Option (Mem Nat)} {h : Heap}
    (o : Own c (.rel b p) l f t h) : b ∈ l := by
  have h1 := o.wp.1
  rw [← List.count_pos_iff]
  rcases o.phase with ⟨tx, ht, hv, hb⟩ | ⟨hf, q, ht, hv, hb⟩
  · cases tx with
    | rel _ _ hr tx =>
      rw [hv, if_neg (by rintro ⟨_, rfl⟩; exact hr rfl)] at h1
      omega
  · rw [hv] at h1
    omega

theorem Own.rel {c : Call} {b : Blk} {p : Th Res} {l : List Blk} {f : Nat} {t : Option (Mem Nat)} {h : Heap}
    (o : Own c (.rel b p) l f t h) : Own c p (l.erase b) f t (h.sub b) := by
  have hm := o.mem
  have he := bytesOf_erase hm
  have hp := List.count_pos_iff.2 hm
  refine ⟨o.wp.2, o.failed, Nat.le_trans (Nat.sub_le _ _) o.peak, ?_⟩
  have hl : ∀ x, (h.sub b).live x = h.live x - (if b == x then 1 else 0) := by
    intro x
    simp only [Heap.sub, beq_iff_eq, eq_comm (a := b)]
    split <;> omega
  rcases o.phase with ⟨tx, ht, hv, hb⟩ | ⟨hf, q, ht, hv, hb⟩
  · cases tx with
    | rel _ _ hr tx =>
      refine Or.inl ⟨tx, ht, fun x => ?_, ?_⟩
      · rw [hl, hv, List.count_erase]
        by_cases e : b == x
        · have e' := eq_of_beq e
          subst e'
          rw [if_pos e, if_neg (by rintro ⟨_, rfl⟩; exact hr rfl)]
          omega
        · rw [if_neg e]
          omega
      · simp only [Heap.sub, hb]; omega
  · cases q with
    | rel _ _ hr q =>
      refine Or.inr ⟨hf, q, ht, fun x => ?_, ?_⟩
      · rw [hl, hv, List.count_erase]
      · simp only [Heap.sub, hb]; omega

theorem Own.use {c : Call} {p : Mem Nat → Th Res} {l : List Blk} {f : Nat} {t : Option (Mem Nat)} {h : Heap}
    (o : Own c (.use p) l f t h) : t = some c.T ∧ Own c (p c.T) l f t h := by
  rcases o.phase with ⟨tx, ht, hv, hb⟩ | ⟨hf, q, ht, hv, hb⟩
  · cases tx with
    | use _ tx => exact ⟨ht, o.wp, o.failed, o.peak, Or.inl ⟨tx _, ht, hv, hb⟩⟩
  · cases q with
    | use _ q => exact q.elim

theorem Own.relT {c : Call} {p : Th Res} {l : List Blk} {f : Nat} {t : Option (Mem Nat)} {h : Heap}
    (o : Own c (.relT p) l f t h) : c.freeT = true ∧ t = some c.T ∧ Own c p l f none (h.sub ⟨.text, c.T.size⟩) := by
  rcases o.phase with ⟨tx, ht, hv, hb⟩ | ⟨hf, q, ht, hv, hb⟩
  · cases tx with
    | relT _ hf q =>
      refine ⟨hf, ht, o.wp.2, o.failed, Nat.le_trans (Nat.sub_le _ _) o.peak, Or.inr ⟨hf, q, rfl, fun x => ?_, ?_⟩⟩
      · simp only [Heap.sub, hv, hf, true_and]
        split <;> omega
      · simp only [Heap.sub, hb, hf, if_true]; omega
  · cases q with
    | relT _ q => exact q.elim

open Function in
theorem inv_act {cs : Fin k → Call} (own : OwnTexts cs) {st st' : Sys k} {i : Fin k} (I : Inv cs st) (a : Act cs st i st') :
    Inv cs st' := by
  obtain ⟨h, o⟩ := I i
  cases a with
  | grant b p e =>
    rw [e] at o
    intro j
    by_cases c : j = i
    · subst c; simp only [update_self]; exact ⟨_, o.grant⟩
    · simp only [update_of_ne c]; exact I j
  | refuse b p e =>
    rw [e] at o
    intro j
    by_cases c : j = i
    · subst c; simp only [update_self]; exact ⟨_, o.refuse⟩
    · simp only [update_of_ne c]; exact I j
  | rel b p e hm =>
    rw [e] at o
    intro j
    by_cases c : j = i
    · subst c; simp only [update_self]; exact ⟨_, o.rel⟩
    · simp only [update_of_ne c]; exact I j
  | relBad b p e hm =>
    rw [e] at o
    exact absurd o.mem hm
  | use p T e ht =>
    rw [e] at o
    have hT : T = (cs i).T := by
      have := o.use.1
      rw [ht] at this
      injection this
    subst hT
    intro j
    by_cases c : j = i
    · subst c; simp only [update_self]; exact ⟨_, o.use.2⟩
    · simp only [update_of_ne c]; exact I j
  | useBad p e ht =>
    rw [e] at o
    rw [o.use.1] at ht
    cases ht
  | relT p T e ht =>
    rw [e] at o
    obtain ⟨hf, _, o'⟩ := o.relT
    intro j
    by_cases c : j = i
    · subst c; simp only [update_self]; exact ⟨_, o'⟩
    · simp only [update_of_ne c, update_of_ne (own i j (Ne.symm c) hf).symm]; exact I j
  | relTBad p e ht =>
    rw [e] at o
    rw [o.relT.2.1] at ht
    cases ht

theorem inv_run {cs : Fin k → Call} {mem : Nat → Option (Mem Nat)} (g : GoodCalls cs mem) (own : OwnTexts cs) {m : Nat}
    {st : Sys k} (r : Run cs mem m st) :
    Inv cs st := by
  induction r with
  | zero => exact inv_start g
  | step m st st' i _ a ih => exact inv_act own ih a

end Conc

open Conc

/-- **C66** any number of threads may call `bwt_string` at the same time, on texts of their own or on shared texts nobody
releases. In every state that any interleaving of their actions can reach, with any pattern of refused requests: a thread that
has finished has returned the transform of its own string, was never refused memory, holds exactly the two blocks of its
result, and its text has been released exactly if it asked for it; or it was itself refused a request and ended with
`std::bad_alloc` or a null dereference. (No thread ever ends with `badFree`: none releases a block it does not own, accesses or
releases a text that is gone.) A text nobody was asked to release is always there, unchanged. -/
theorem C66_concurrent_calls {cs : Fin k → Call} {mem : Nat → Option (Mem Nat)} (g : GoodCalls cs mem) (own : OwnTexts cs)
    {m : Nat} {st : Sys k} (run : Run cs mem m st) (i : Fin k) :
    (∀ r, st.th i = .ret r →
      (∃ b, r = .ok (some b) ∧ IsBWT (cs i).s b.bwt.data b.last ∧ st.failed i = 0 ∧
        (st.blocks i).Perm [⟨.bwt, (cs i).s.length + 1⟩, ⟨.result, 16⟩] ∧ st.texts (cs i).addr = if (cs i).freeT then none else some (cs i).T) ∨
      (∃ e, r = .error e ∧ (e = .badAlloc ∨ e = .prog (.ub .nullDeref)) ∧ 0 < st.failed i)) ∧
    ((cs i).freeT = false → st.texts (cs i).addr = some (cs i).T) := by
  obtain ⟨h, o⟩ := inv_run g own run i
  refine ⟨fun r e => ?_, fun hf => ?_⟩
  · rw [e] at o
    rcases o.wp with ⟨b, e1, hb, h0, ho, _⟩ | ⟨e', e1, he, hf⟩
    · refine Or.inl ⟨b, e1, hb, by rw [← o.failed, h0], ?_⟩
      have hcount : ∀ x, (st.blocks i).count x = (if x = ⟨.bwt, (cs i).s.length + 1⟩ then 1 else 0) +
          (if x = ⟨.result, 16⟩ then 1 else 0) ∧ st.texts (cs i).addr = if (cs i).freeT then none else some (cs i).T := by
        intro x
        have hx := ho x
        rcases o.phase with ⟨tx, ht, hv, hb⟩ | ⟨hf, q, ht, hv, hb⟩
        · rw [ht]
          have hx2 := ho ⟨.text, (cs i).T.size⟩
          rw [hv] at hx hx2
          simp only [heap0] at hx hx2
          cases hc : (cs i).freeT with
          | false => simp [hc] at hx ⊢; omega
          | true => simp [hc] at hx2
        · rw [hv] at hx
          simp only [heap0, hf, true_and] at hx
          rw [ht, hf]
          refine ⟨?_, rfl⟩
          split at hx <;> omega
      refine ⟨?_, (hcount ⟨.bwt, 0⟩).2⟩
      rw [List.perm_iff_count]
      intro x
      rw [(hcount x).1]
      simp only [List.count_cons, List.count_nil, beq_iff_eq, eq_comm (a := x)]
      omega
    · exact Or.inr ⟨e', e1, he, by rw [← o.failed]; exact hf⟩
  · rcases o.phase with ⟨tx, ht, hv, hb⟩ | ⟨hf', q, ht, hv, hb⟩
    · exact ht
    · rw [hf] at hf'; cases hf'

/-- **C66** no thread waits for another: a thread that has not finished can make its next step, whatever the others do. -/
theorem C66_no_waiting (cs : Fin k → Call) (st : Sys k) (i : Fin k) : (∃ r, st.th i = .ret r) ∨ ∃ st', Act cs st i st' := by
  cases e : st.th i with
  | ret r => exact Or.inl ⟨r, rfl⟩
  | req b p => exact Or.inr ⟨_, .grant st i b p e⟩
  | rel b p =>
    by_cases c : b ∈ st.blocks i
    · exact Or.inr ⟨_, .rel st i b p e c⟩
    · exact Or.inr ⟨_, .relBad st i b p e c⟩
  | use p =>
    cases c : st.texts (cs i).addr with
    | some T => exact Or.inr ⟨_, .use st i p T e c⟩
    | none => exact Or.inr ⟨_, .useBad st i p e c⟩
  | relT p =>
    cases c : st.texts (cs i).addr with
    | some T => exact Or.inr ⟨_, .relT st i p T e c⟩
    | none => exact Or.inr ⟨_, .relTBad st i p e c⟩

namespace Conc

/-- steps left -/
def left (cs : Fin k → Call) (mem : Nat → Option (Mem Nat)) (st : Sys k) : Nat := ∑ i, (st.th i).depth (mem (cs i).addr)

open Function in
theorem left_update (cs : Fin k → Call) (mem : Nat → Option (Mem Nat)) (th : Fin k → Th Res) (i : Fin k) (p : Th Res)
    (h : p.depth (mem (cs i).addr) < (th i).depth (mem (cs i).addr)) :
    ∑ j, (update th i p j).depth (mem (cs j).addr) < ∑ j, (th j).depth (mem (cs j).addr) := by
  refine Finset.sum_lt_sum (fun j _ => ?_) ⟨i, Finset.mem_univ _, by rwa [update_self]⟩
  by_cases c : j = i
  · subst c; rw [update_self]; omega
  · rw [update_of_ne c]

/-- nobody writes to the texts -/
def Same (mem texts : Nat → Option (Mem Nat)) : Prop := ∀ a T, texts a = some T → mem a = some T

open Function in
theorem same_run {cs : Fin k → Call} {mem : Nat → Option (Mem Nat)} {m : Nat} {st : Sys k} (r : Run cs mem m st) :
    Same mem st.texts := by
  induction r with
  | zero => intro a T h; exact h
  | step m st st' i _ a ih =>
    cases a with
    | relT p T e ht =>
      intro a X h
      simp only at h
      by_cases c : a = (cs i).addr
      · subst c; rw [update_self] at h; cases h
      · rw [update_of_ne c] at h; exact ih a X h
    | _ => exact ih

theorem left_act {cs : Fin k → Call} {mem : Nat → Option (Mem Nat)} {st st' : Sys k} {i : Fin k} (hs : Same mem st.texts)
    (a : Act cs st i st') : left cs mem st' < left cs mem st := by
  cases a with
  | grant b p e => exact left_update _ _ _ _ _ (by rw [e]; simp only [Th.depth]; omega)
  | refuse b p e => exact left_update _ _ _ _ _ (by rw [e]; simp only [Th.depth]; omega)
  | rel b p e hm => exact left_update _ _ _ _ _ (by rw [e]; simp only [Th.depth]; omega)
  | relBad b p e hm => exact left_update _ _ _ _ _ (by rw [e]; simp only [Th.depth]; omega)
  | use p T e ht => exact left_update _ _ _ _ _ (by rw [e, hs _ _ ht]; simp only [Th.depth]; omega)
  | useBad p e ht => exact left_update _ _ _ _ _ (by rw [e]; cases mem (cs i).addr <;> simp only [Th.depth] <;> omega)
  | relT p T e ht => exact left_update _ _ _ _ _ (by rw [e]; simp only [Th.depth]; omega)
  | relTBad p e ht => exact left_update _ _ _ _ _ (by rw [e]; simp only [Th.depth]; omega)

/-- a step that does not refuse anything -/
theorem act_granting (cs : Fin k → Call) (st : Sys k) (i : Fin k) :
    (∃ r, st.th i = .ret r) ∨ ∃ st', Act cs st i st' ∧ st'.failed = st.failed := by
  cases e : st.th i with
  | ret r => exact Or.inl ⟨r, rfl⟩
  | req b p => exact Or.inr ⟨_, .grant st i b p e, rfl⟩
  | rel b p =>
    by_cases c : b ∈ st.blocks i
    · exact Or.inr ⟨_, .rel st i b p e c, rfl⟩
    · exact Or.inr ⟨_, .relBad st i b p e c, rfl⟩
  | use p =>
    cases c : st.texts (cs i).addr with
    | some T => exact Or.inr ⟨_, .use st i p T e c, rfl⟩
    | none => exact Or.inr ⟨_, .useBad st i p e c, rfl⟩
  | relT p =>
    cases c : st.texts (cs i).addr with
    | some T => exact Or.inr ⟨_, .relT st i p T e c, rfl⟩
    | none => exact Or.inr ⟨_, .relTBad st i p e c, rfl⟩

end Conc

/-- **C66** every schedule ends: there is a number of steps no interleaving of the calls can exceed. -/
theorem C66_terminates (cs : Fin k → Call) (mem : Nat → Option (Mem Nat)) : ∃ N, ∀ m st, Run cs mem m st → m ≤ N := by
  refine ⟨left cs mem (start cs mem), fun m st r => ?_⟩
  have : m + left cs mem st ≤ left cs mem (start cs mem) := by
    induction r with
    | zero => omega
    | step m st st' i r a ih => have := left_act (same_run r) a; omega
  omega

/-- **C66** from every reachable state all calls can be brought to their end, without refusing any further request. -/
theorem C66_can_finish (cs : Fin k → Call) (mem : Nat → Option (Mem Nat)) {m : Nat} {st : Sys k} (run : Run cs mem m st) :
    ∃ m' st', Run cs mem m' st' ∧ st'.failed = st.failed ∧ ∀ i, ∃ r, st'.th i = .ret r := by
  induction hl : left cs mem st using Nat.strong_induction_on generalizing m st with
  | _ n ih =>
    by_cases c : ∀ i, ∃ r, st.th i = .ret r
    · exact ⟨m, st, run, rfl, c⟩
    · obtain ⟨i, hi⟩ := not_forall.1 c
      rcases act_granting cs st i with h | ⟨st1, a, hf⟩
      · exact absurd h hi
      · obtain ⟨m', st', r', f', h'⟩ := ih (left cs mem st1) (by have := left_act (same_run run) a; omega)
          (.step m st st1 i run a) rfl
        exact ⟨m', st', r', f'.trans hf, h'⟩

/-- **C06** the sequence of actions of a call (it is the program of `HeapModel.lean`; the text is not a parameter of this
program, it gets to see it only by the action `use`): the text is released only if the caller asked for it, at most once, and
after that the call neither reads nor releases it, whatever requests for memory are refused. For every text, length and
memory content. -/
theorem C06_no_access_after_release (w : World) (n : Nat) (freeT : Bool) :
    (∀ T h, (bwtStringC w false n freeT).run T h =
      ((bwtStringH w (some T) n freeT h).1.map Prod.fst, (bwtStringH w (some T) n freeT h).2)) ∧
    TextOk freeT (bwtStringC w false n freeT) := by
  refine ⟨fun T h => ?_, textOk_bwtString w false n freeT⟩
  rw [run_bwtString, H.bind_def]
  rcases bwtStringH w (some T) n freeT h with ⟨r, h'⟩
  cases r <;> rfl

/-- `TextOk` is not trivial: a program that reads the text after releasing it does not have it -/
example : ¬ TextOk true (.relT (.use fun _ => .ret (.ok ())) : Th Unit) := by
  intro h
  cases h with
  | relT _ _ q => cases q with | use _ f _ => exact f

/-! ## Memory of concurrent calls -/

/-- bytes all threads hold together (beyond the texts) -/
def inUse (st : Sys k) : Nat := ∑ i, bytesOf (st.blocks i)

/-- Reachable with an allocator that has `cap` bytes and grants every request that fits. -/
inductive RunCap (cs : Fin k → Call) (mem : Nat → Option (Mem Nat)) (cap : Nat) : Nat → Sys k → Prop
  | zero : RunCap cs mem cap 0 (start cs mem)
  | step (m : Nat) (st st' : Sys k) (i : Fin k) : RunCap cs mem cap m st → Act cs st i st' →
      (∀ b p, st.th i = .req b p → inUse st + b.bytes ≤ cap → st'.failed = st.failed) → RunCap cs mem cap (m + 1) st'

theorem RunCap.run {cs : Fin k → Call} {mem : Nat → Option (Mem Nat)} {cap m : Nat} {st : Sys k} (r : RunCap cs mem cap m st) :
    Run cs mem m st := by
  induction r with
  | zero => exact .zero
  | step m st st' i _ a _ ih => exact .step m st st' i ih a

/-- The memory needed for the calls together: per call `58·n + 70600000` bytes, and the size of the text if the call is to
release it. -/
def needed (cs : Fin k → Call) : Nat :=
  ∑ i, ((if (cs i).freeT then (cs i).T.size else 0) + 58 * (cs i).s.length + 70600000)

namespace Conc

theorem ends_peak {c : Call} {p : Th Res} {h : Heap} (w : p.wp c.T (Ends c) h) (hf : h.failed = 0) : h.peak ≤ budget c := by
  obtain ⟨r, h', q, f, pk⟩ := p.wp_end c.T h w
  rcases q with ⟨b, _, _, _, _, hb⟩ | ⟨e, _, _, h1⟩
  · exact Nat.le_trans pk hb
  · omega

theorem Own.bytes_le {c : Call} {p : Th Res} {l : List Blk} {t : Option (Mem Nat)} {h : Heap} (o : Own c p l 0 t h) :
    bytesOf l ≤ budget c := by
  have h1 := ends_peak o.wp o.failed
  have h2 := o.peak
  rcases o.phase with ⟨tx, ht, hv, hb⟩ | ⟨hf, q, ht, hv, hb⟩ <;> omega

theorem Own.req_le {c : Call} {b : Blk} {p : Bool → Th Res} {l : List Blk} {t : Option (Mem Nat)} {h : Heap}
    (o : Own c (.req b p) l 0 t h) : bytesOf l + b.bytes ≤ budget c := by
  have := o.grant.bytes_le
  simp only [bytesOf, List.map_cons, List.sum_cons] at this ⊢
  omega

theorem cap_inv {cs : Fin k → Call} {mem : Nat → Option (Mem Nat)} (g : GoodCalls cs mem) (own : OwnTexts cs) {cap m : Nat} (hc : needed cs ≤ cap) {st : Sys k}
    (r : RunCap cs mem cap m st) : ∀ i, st.failed i = 0 := by
  induction r with
  | zero => intro i; rfl
  | step m st st' i r a fair ih =>
    have I := inv_run g own r.run
    have key : st'.failed = st.failed := by
      cases e : st.th i with
      | req b p =>
        refine fair b p e ?_
        have h1 : ∀ j, bytesOf (st.blocks j) + (if j = i then b.bytes else 0) ≤ budget (cs j) := by
          intro j
          obtain ⟨h, o⟩ := I j
          rw [ih j] at o
          by_cases c : j = i
          · subst c
            rw [if_pos rfl]
            rw [e] at o
            exact o.req_le
          · rw [if_neg c]
            exact o.bytes_le
        have h2 := Finset.sum_le_sum (fun j (_ : j ∈ Finset.univ) => h1 j)
        rw [Finset.sum_add_distrib, Finset.sum_ite_eq' Finset.univ i (fun _ => b.bytes), if_pos (Finset.mem_univ _)] at h2
        exact Nat.le_trans h2 hc
      | _ => cases a <;> first | rfl | (rename_i e'; rw [e] at e'; cases e')
    intro j
    rw [key]
    exact ih j

end Conc

/-- **C67** memory of concurrent calls adds up: with an allocator that has room for the sum of what the calls need alone
(`needed`, linear in the lengths), no request is ever refused, however the calls are interleaved; so every call that has
finished has returned its transform, and together they never hold more than that. -/
theorem C67_enough_memory_for_all {cs : Fin k → Call} {mem : Nat → Option (Mem Nat)} (g : GoodCalls cs mem) (own : OwnTexts cs)
    {cap m : Nat} (hc : needed cs ≤ cap) {st : Sys k} (run : RunCap cs mem cap m st) :
    inUse st ≤ needed cs ∧
    ∀ i, st.failed i = 0 ∧ ∀ r, st.th i = .ret r →
      ∃ b, r = .ok (some b) ∧ IsBWT (cs i).s b.bwt.data b.last := by
  have h0 := cap_inv g own hc run
  refine ⟨Finset.sum_le_sum fun j _ => ?_, fun i => ⟨h0 i, fun r e => ?_⟩⟩
  · obtain ⟨h, o⟩ := inv_run g own run.run j
    rw [h0 j] at o
    exact o.bytes_le
  · rcases (C66_concurrent_calls g own run.run i).1 r e with ⟨b, e1, hb, _⟩ | ⟨e', _, _, hf⟩
    · exact ⟨b, e1, hb⟩
    · have := h0 i; omega

/-! ## Sharing a text that is released -/

namespace Conc

/-- with all requests granted, the program accesses the text -/
inductive Uses {α : Type} : Th α → Prop
  | use (p : Mem Nat → Th α) : Uses (.use p)
  | req (b : Blk) (p : Bool → Th α) : Uses (p true) → Uses (.req b p)

/-- with all requests granted, the program returns `a` without touching the text or releasing anything -/
inductive Gives {α : Type} : Th α → α → Prop
  | ret (a : α) : Gives (.ret (.ok a)) a
  | req (b : Blk) (p : Bool → Th α) (a : α) : Gives (p true) a → Gives (.req b p) a

section
variable {α β : Type}

theorem Uses.bind {x : Th α} {f : α → Th β} (h : Uses x) : Uses (x >>= f) := by
  show Uses (x.bind f)
  induction h with
  | use p => exact .use _
  | req b p _ ih => exact .req _ _ ih

theorem Gives.uses {x : Th α} {a : α} {f : α → Th β} (h : Gives x a) (hf : Uses (f a)) : Uses (x >>= f) := by
  show Uses (x.bind f)
  induction h with
  | ret a => exact hf
  | req b p a _ ih => exact .req _ _ (ih hf)

theorem Gives.bind {x : Th α} {a : α} {f : α → Th β} {b : β} (h : Gives x a) (hf : Gives (f a) b) : Gives (x >>= f) b := by
  show Gives (x.bind f) b
  induction h with
  | ret a => exact hf
  | req b p a _ ih => exact .req _ _ _ (ih hf)

theorem Gives.onBadAlloc {x : Th α} {a : α} {c : Th Unit} (h : Gives x a) : Gives (onBadAllocC x c) a := by
  induction h with
  | ret a => exact .ret _
  | req b p a _ ih => exact .req _ _ _ ih

theorem gives_new {f : Fam} {b : Blk} (h : b.role.fam = f) : Gives (newC f b) () := by
  unfold newC
  rw [if_pos h]
  exact .req _ _ _ (.ret ())

theorem gives_lift {m : M α} {a : α} (h : m = .ok a) : Gives (Th.lift m) a := by
  subst h; exact .ret a

end

theorem uses_prog {c : Call} (g : GoodCall c.w.junk c.w.sorter c.T c.s) : Uses c.prog := by
  have h3 := g.len3
  unfold Call.prog bwtStringC
  rw [if_neg (by simp only [Bool.false_eq_true, false_or]; omega)]
  unfold bwtIsC
  refine (gives_new rfl).uses (Uses.bind ?_)
  unfold extractRestC
  simp only
  rw [if_neg (by omega)]
  obtain ⟨bits, hb⟩ : ∃ b, positionOfMsb (c.s.length / 2 + 1) = .ok b := ⟨_, rfl⟩
  have ht : ∃ ht, HashTable.new 67777 c.s.length = .ok ht := by
    unfold HashTable.new
    dsimp only
    rw [hb]
    exact ⟨_, rfl⟩
  obtain ⟨tab, ht⟩ := ht
  have g1 : Gives (newTableC 67777 c.s.length) tab := by
    unfold newTableC
    exact (gives_new rfl).bind ((Gives.onBadAlloc ((gives_new rfl).bind (gives_new rfl))).bind (gives_lift ht))
  have hM : ∃ M, bump (Container.new c.s.length).M 0 = .ok M := ⟨_, rfl⟩
  obtain ⟨M, hM⟩ := hM
  exact g1.uses ((gives_lift hM).uses (.use _))

open Function in
/-- thread `i` runs alone to its end, all requests granted -/
theorem solo {cs : Fin k → Call} {mem : Nat → Option (Mem Nat)} (i : Fin k) (p : Th Res) :
    ∀ (m : Nat) (st : Sys k) (h : Heap), Run cs mem m st → st.th i = p →
    st.failed i = 0 → Own (cs i) p (st.blocks i) 0 (st.texts (cs i).addr) h →
    ∃ m' st' r h', Run cs mem m' st' ∧ st'.th i = .ret r ∧ (∀ j, j ≠ i → st'.th j = st.th j) ∧
      Own (cs i) (.ret r) (st'.blocks i) 0 (st'.texts (cs i).addr) h' := by
  induction p with
  | ret r => intro m st h run e hf o; exact ⟨m, st, r, h, run, e, fun j _ => rfl, o⟩
  | req b p ih =>
    intro m st h run e hf o
    obtain ⟨m', st', r, h', run', e', hj, o'⟩ := ih true (m + 1) _ (h.got b) (.step m st _ i run (.grant st i b p e))
      (by simp) hf (by simpa using o.grant)
    refine ⟨m', st', r, h', run', e', fun j c => ?_, o'⟩
    rw [hj j c]; exact update_of_ne c _ _
  | rel b p ih =>
    intro m st h run e hf o
    obtain ⟨m', st', r, h', run', e', hj, o'⟩ := ih (m + 1) _ (h.sub b) (.step m st _ i run (.rel st i b p e o.mem))
      (by simp) hf (by simpa using o.rel)
    refine ⟨m', st', r, h', run', e', fun j c => ?_, o'⟩
    rw [hj j c]; exact update_of_ne c _ _
  | use p ih =>
    intro m st h run e hf o
    obtain ⟨m', st', r, h', run', e', hj, o'⟩ := ih (cs i).T (m + 1) _ h (.step m st _ i run (.use st i p (cs i).T e o.use.1))
      (by simp) hf o.use.2
    refine ⟨m', st', r, h', run', e', fun j c => ?_, o'⟩
    rw [hj j c]; exact update_of_ne c _ _
  | relT p ih =>
    intro m st h run e hf o
    obtain ⟨m', st', r, h', run', e', hj, o'⟩ := ih (m + 1) _ (h.sub ⟨.text, (cs i).T.size⟩)
      (.step m st _ i run (.relT st i p (cs i).T e o.relT.2.1)) (by simp) hf (by simpa using o.relT.2.2)
    refine ⟨m', st', r, h', run', e', fun j c => ?_, o'⟩
    rw [hj j c]; exact update_of_ne c _ _

open Function in
theorem uses_gone {cs : Fin k → Call} {mem : Nat → Option (Mem Nat)} (i : Fin k) {p : Th Res} (u : Uses p) :
    ∀ (m : Nat) (st : Sys k), Run cs mem m st → st.th i = p → st.texts (cs i).addr = none →
    ∃ m' st', Run cs mem m' st' ∧ st'.th i = .ret (.error .badFree) := by
  induction u with
  | use p => intro m st run e ht; exact ⟨m + 1, _, .step m st _ i run (.useBad st i p e ht), by simp⟩
  | req b p _ ih =>
    intro m st run e ht
    exact ih (m + 1) _ (.step m st _ i run (.grant st i b p e)) (by simp) ht

end Conc

/-- **C66** the condition on shared texts is needed: whenever two calls get the same text and one of them is to release it,
there is an interleaving in which the other call reads the text after it has been released. -/
theorem C66_shared_text_released {cs : Fin k → Call} {mem : Nat → Option (Mem Nat)} (g : GoodCalls cs mem) {i j : Fin k} (hij : i ≠ j)
    (hf : (cs i).freeT = true) (ha : (cs i).addr = (cs j).addr) :
    ∃ m st, Run cs mem m st ∧ st.th j = .ret (.error .badFree) := by
  obtain ⟨h, o⟩ := inv_start g i
  obtain ⟨m', st', r, h', run', e', hj, o'⟩ := solo (cs := cs) (mem := mem) i (cs i).prog 0 (start cs mem) h .zero rfl rfl o
  have ht : st'.texts (cs i).addr = none := by
    rcases o'.phase with ⟨tx, ht, hv, hb⟩ | ⟨hf, q, ht, hv, hb⟩
    · rcases o'.wp with ⟨b, e1, hb, h0, ho, _⟩ | ⟨e, _, _, h1⟩
      · have := ho ⟨.text, (cs i).T.size⟩
        rw [hv] at this
        simp [heap0, hf] at this
      · rw [o'.failed] at h1; omega
    · exact ht
  rw [ha] at ht
  exact uses_gone j (uses_prog (g j).2) m' st' run' (by rw [hj j (Ne.symm hij)]; rfl) ht

/-! ## Non-vacuity -/

/-- three threads: two share the text at address 100, the third has its own and wants it released -/
def bananas : Fin 3 → Call := fun i =>
  { w := bananaWorld 77, s := banana, T := cString banana, freeT := decide (i = 2), addr := if i = 2 then 200 else 100 }

/-- the memory at the two addresses -/
def bananaMem : Nat → Option (Mem Nat) := fun a => if a = 100 ∨ a = 200 then some (cString banana) else none

theorem bananas_good : GoodCalls bananas bananaMem := fun i => ⟨by
  have : (bananas i).addr = 100 ∨ (bananas i).addr = 200 := by
    simp only [bananas]
    split
    · exact Or.inr rfl
    · exact Or.inl rfl
  exact if_pos this, banana_good⟩

theorem bananas_own : OwnTexts bananas := by
  intro i j h1 h2
  have : i = 2 := by simpa [bananas] using h2
  subst this
  simp [bananas, Ne.symm h1]

/-- the hypotheses are met, and all three calls can finish; then all three have returned the transform -/
example : ∃ m st, Run bananas bananaMem m st ∧ (∀ i, ∃ b, st.th i = .ret (.ok (some b)) ∧
    IsBWT banana b.bwt.data b.last) ∧ st.texts 100 = some (cString banana) ∧ st.texts 200 = none := by
  obtain ⟨m, st, run, hf, hr⟩ := C66_can_finish bananas bananaMem .zero
  have key : ∀ i, ∃ b, st.th i = .ret (.ok (some b)) ∧
      IsBWT banana b.bwt.data b.last ∧ st.texts (bananas i).addr = if (bananas i).freeT then none else some (bananas i).T := by
    intro i
    obtain ⟨r, e⟩ := hr i
    rcases (C66_concurrent_calls bananas_good bananas_own run i).1 r e with ⟨b, e1, hb, _, _, ht⟩ | ⟨e', _, _, h1⟩
    · exact ⟨b, by rw [e, e1], hb, ht⟩
    · rw [hf] at h1
      simp [start] at h1
  refine ⟨m, st, run, fun i => ?_, ?_, ?_⟩
  · obtain ⟨b, h1, h2, _⟩ := key i
    exact ⟨b, h1, h2⟩
  · obtain ⟨b, _, _, h⟩ := key 0
    simpa [bananas] using h
  · obtain ⟨b, _, _, h⟩ := key 2
    simpa [bananas] using h

/-- "banana" three times needs less than 212 MB -/
example : needed bananas ≤ 212000000 := by
  simp [needed, bananas, Fin.sum_univ_three, banana, cString]

/-- two threads share a text and one is to release it: the hypotheses of `C66_shared_text_released` are met -/
example : ∃ m st, Run (fun i : Fin 2 => ({ w := bananaWorld 77, s := banana, T := cString banana, freeT := decide (i = 1), addr := 100 } : Call)) bananaMem m st ∧ st.th 0 = .ret (.error .badFree) :=
  C66_shared_text_released (fun _ => ⟨rfl, banana_good⟩) (i := 1) (j := 0) (by decide) rfl rfl

end Flbwt
