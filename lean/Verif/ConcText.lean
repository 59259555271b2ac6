import Verif.ConcErase

/-!
# Where a thread touches the text

`Ev u r p`: the program `p` accesses the text only if `u`, and releases it only if `r` (and no release of another block is
a release of a text).
`TextOk freeT p`: the program releases the text only if `freeT`, and after that it neither accesses nor releases it.
-/

namespace Flbwt

open SaStore

/-- the program accesses the text only if `u`, and releases it only if `r` -/
inductive Ev (u r : Prop) {α : Type} : Th α → Prop
  | ret (x : Except HErr α) : Ev u r (.ret x)
  | req (b : Blk) (k : Bool → Th α) : (∀ g, Ev u r (k g)) → Ev u r (.req b k)
  | rel (b : Blk) (k : Th α) : b.role ≠ .text → Ev u r k → Ev u r (.rel b k)
  | use (k : Mem Nat → Th α) : u → (∀ T, Ev u r (k T)) → Ev u r (.use k)
  | relT (k : Th α) : r → Ev u r k → Ev u r (.relT k)

/-- the program never touches the text -/
abbrev Quiet {α : Type} (p : Th α) : Prop := Ev False False p

/-- the program releases the text at most once, only if `freeT`, and after that it does not touch the text again -/
inductive TextOk (freeT : Bool) {α : Type} : Th α → Prop
  | ret (x : Except HErr α) : TextOk freeT (.ret x)
  | req (b : Blk) (k : Bool → Th α) : (∀ g, TextOk freeT (k g)) → TextOk freeT (.req b k)
  | rel (b : Blk) (k : Th α) : b.role ≠ .text → TextOk freeT k → TextOk freeT (.rel b k)
  | use (k : Mem Nat → Th α) : (∀ T, TextOk freeT (k T)) → TextOk freeT (.use k)
  | relT (k : Th α) : freeT = true → Quiet k → TextOk freeT (.relT k)

section
variable {α β σ : Type} {u r : Prop}

theorem Ev.bind {x : Th α} {f : α → Th β} (hx : Ev u r x) (hf : ∀ a, Ev u r (f a)) : Ev u r (x >>= f) := by
  show Ev u r (x.bind f)
  induction hx with
  | ret x =>
    cases x with
    | ok a => exact hf a
    | error e => exact .ret _
  | req b k _ ih => exact .req _ _ ih
  | rel b k h _ ih => exact .rel _ _ h ih
  | use k h _ ih => exact .use _ h ih
  | relT k h _ ih => exact .relT _ h ih

theorem Ev.mono {u' r' : Prop} {x : Th α} (hx : Ev u r x) (hu : u → u') (hr : r → r') : Ev u' r' x := by
  induction hx with
  | ret x => exact .ret _
  | req b k _ ih => exact .req _ _ ih
  | rel b k h _ ih => exact .rel _ _ h ih
  | use k h _ ih => exact .use _ (hu h) ih
  | relT k h _ ih => exact .relT _ (hr h) ih

theorem Ev.pure' {a : α} : Ev u r (pure a : Th α) := .ret _
theorem Ev.lift {m : M α} : Ev u r (Th.lift m) := by cases m <;> exact .ret _
theorem Ev.ite {c : Prop} [Decidable c] {a b : Th α} (h1 : Ev u r a) (h2 : Ev u r b) : Ev u r (if c then a else b) := by
  split
  · exact h1
  · exact h2
theorem Ev.newC' {f : Fam} {b : Blk} : Ev u r (newC f b) := by
  unfold newC
  refine .ite (.req _ _ fun g => ?_) (.ret _)
  cases g <;> exact .ret _
theorem Ev.mallocC' {b : Blk} : Ev u r (mallocC b) := by
  unfold mallocC
  exact .ite (.req _ _ fun g => .ret _) (.ret _)
theorem Ev.nonNullC' {p : Bool} : Ev u r (nonNullC p) := by cases p <;> exact .ret _
theorem Ev.freeC' {f : Fam} {b : Blk} (h : f = .c → b.role ≠ .text) : Ev u r (freeC f b) := by
  unfold freeC
  split
  · rename_i c
    exact .rel _ _ (fun e => h (by rw [← c, e]; rfl) e) (.ret _)
  · exact .ret _
theorem Ev.reallocC' {a b : Nat} : Ev u r (reallocC a b) := by
  unfold reallocC
  refine .req _ _ fun g => ?_
  cases g with
  | false => exact .ret _
  | true =>
    simp only [if_true]
    exact .ite (.ret _) (.rel _ _ (by simp) (.ret _))
theorem Ev.readT' {f : Mem Nat → M α} : Ev True r (readT f) := .use _ trivial fun _ => .lift
theorem Ev.whenC' {c : Prop} [Decidable c] {x : Th Unit} (h : Ev u r x) : Ev u r (whenC c x) := by
  unfold whenC
  exact .ite h .pure'
theorem Ev.onBadAllocC' {x : Th α} {c : Th Unit} (h : Ev u r x) (hc : Ev u r c) : Ev u r (onBadAllocC x c) := by
  induction h with
  | ret x =>
    cases x with
    | ok a => exact .ret _
    | error e =>
      cases e with
      | badAlloc => exact hc.bind fun _ => .ret _
      | _ => exact .ret _
  | req b k _ ih => exact .req _ _ ih
  | rel b k h _ ih => exact .rel _ _ h ih
  | use k h _ ih => exact .use _ h ih
  | relT k h _ ih => exact .relT _ h ih
theorem Ev.loopUpC' {lo cnt : Nat} {s : σ} {f : Nat → σ → Th σ} (h : ∀ i s, Ev u r (f i s)) : Ev u r (loopUpC lo cnt s f) := by
  induction cnt generalizing lo s with
  | zero => exact .ret _
  | succ c ih => exact .bind (h _ _) fun _ => ih
theorem Ev.loopDownC' {hi : Nat} {s : σ} {f : Nat → σ → Th σ} (h : ∀ i s, Ev u r (f i s)) : Ev u r (loopDownC hi s f) := by
  induction hi generalizing s with
  | zero => exact .ret _
  | succ c ih => exact .bind (h _ _) fun _ => ih
theorem Ev.whileC' {fuel : Nat} {s : σ} {f : σ → Th (σ ⊕ β)} (h : ∀ s, Ev u r (f s)) : Ev u r (whileC fuel s f) := by
  induction fuel generalizing s with
  | zero => exact .ret _
  | succ c ih =>
    refine .bind (h _) fun x => ?_
    cases x with
    | inl s' => exact ih
    | inr b => exact .ret _

theorem TextOk.bind {freeT : Bool} {x : Th α} {f : α → Th β} (hx : Ev True False x)
    (hf : ∀ a, TextOk freeT (f a)) : TextOk freeT (x >>= f) := by
  show TextOk freeT (x.bind f)
  induction hx with
  | ret x =>
    cases x with
    | ok a => exact hf a
    | error e => exact .ret _
  | req b k _ ih => exact .req _ _ ih
  | rel b k h _ ih => exact .rel _ _ h ih
  | use k h _ ih => exact .use _ ih
  | relT k h _ ih => exact h.elim

theorem TextOk.of_quiet {freeT : Bool} {x : Th α} (hx : Quiet x) : TextOk freeT x := by
  induction hx with
  | ret x => exact .ret _
  | req b k _ ih => exact .req _ _ ih
  | rel b k h _ ih => exact .rel _ _ h ih
  | use k h _ ih => exact h.elim
  | relT k h _ ih => exact h.elim

end

/-- goes through a `do` block; the argument proves the calls -/
macro "evs" "(" call:tacticSeq ")" : tactic => `(tactic| (repeat' with_reducible (first
  | exact Ev.pure' | exact Ev.lift | exact Ev.newC' | exact Ev.mallocC' | exact Ev.nonNullC' | exact Ev.freeC' (by simp)
  | exact Ev.reallocC' | exact Ev.readT' | assumption
  | ($call)
  | apply Ev.bind | apply Ev.whenC' | apply Ev.onBadAllocC' | apply Ev.loopUpC' | apply Ev.loopDownC' | apply Ev.whileC'
  | apply Ev.ite | split | intro _)))

section
variable {u r : Prop}

/-! ## The functions that never touch the text -/

theorem ev_newQBlock (w : Nat) : Ev u r (newQBlockC w) := by unfold newQBlockC; evs (fail)
theorem ev_freeQBlock (w : Nat) : Ev u r (freeQBlockC w) := by unfold freeQBlockC; evs (fail)
theorem ev_enqueue (sj : BitVec 64) (q : Queue) (x : BitVec 64) : Ev u r (q.enqueueC sj x) := by
  unfold Queue.enqueueC; evs (apply ev_newQBlock)
theorem ev_enqueueL (sj : BitVec 64) (q : Queue) (x : BitVec 64) : Ev u r (q.enqueueLC sj x) := by
  unfold Queue.enqueueLC; evs (apply ev_newQBlock)
theorem ev_dequeue (sj : BitVec 64) (q : Queue) : Ev u r (q.dequeueC sj) := by
  unfold Queue.dequeueC; evs (apply ev_freeQBlock)
theorem ev_destroyStep (q : Queue) : Ev u r q.destroyStepC := by
  unfold Queue.destroyStepC; evs (apply ev_freeQBlock)
theorem ev_destroy (fuel : Nat) (q : Queue) : Ev u r (q.destroyC fuel) := by
  unfold Queue.destroyC; evs (apply ev_destroyStep)
theorem ev_newTable (htsize n : Nat) : Ev u r (newTableC htsize n) := by unfold newTableC; evs (fail)
theorem ev_makeRoom (junk : Fresh) (ht : HashTable) (h q : Nat) (o : Option Nat) (space : Nat) :
    Ev u r (makeRoomC junk ht h q o space) := by unfold makeRoomC; evs (fail)
theorem ev_deleteTable (ht : HashTable) : Ev u r (deleteTableC ht) := by unfold deleteTableC; evs (fail)
theorem ev_deleteContainer (ct : Container) : Ev u r (deleteContainerC ct) := by
  unfold deleteContainerC; evs (apply ev_deleteTable)
theorem ev_deletePacked (p : PackedArray) : Ev u r (deletePackedC p) := by unfold deletePackedC; evs (fail)
theorem ev_newAll : ∀ l : List Blk, Ev u r (newAllC l)
  | [] => .pure'
  | b :: l => by unfold newAllC; evs (exact ev_newAll l)
theorem ev_freeAll : ∀ l : List Blk, Ev u r (freeAllC l)
  | [] => .pure'
  | b :: l => by unfold freeAllC; evs (exact ev_freeAll l)

section
variable {S : Type} [SaStore S] [SaBlocks S]

theorem ev_placeCounters (n k fs : Nat) (junk : Nat → BitVec 64) (s : St S) : Ev u r (placeCountersC n k fs junk s) := by
  unfold placeCountersC; evs (apply ev_newAll)
theorem ev_freeCounters (k fs : Nat) (s : St S) : Ev u r (freeCountersC k fs s) := by
  unfold freeCountersC; evs (apply ev_freeAll)
theorem ev_stage1 (junk : Nat → BitVec 64) (e : Env) (fs n k : Nat) (s : St S) : Ev u r (stage1C junk e fs n k s) := by
  unfold stage1C; evs (first | apply ev_placeCounters | apply ev_freeCounters)
theorem ev_stage3 (junk : Nat → BitVec 64) (e : Env) (fs n k m : Nat) (s : St S) : Ev u r (stage3C junk e fs n k m s) := by
  unfold stage3C; evs (first | apply ev_placeCounters | apply ev_freeCounters)
theorem ev_sais (junk : Nat → Nat → BitVec 64) (fuel : Nat) : ∀ (e : Env) (fs n k : Nat) (s : St S),
    Ev u r (saisC junk fuel e fs n k s) := by
  induction fuel with
  | zero => intro e fs n k s; exact .lift
  | succ fuel ih =>
    intro e fs n k s
    rw [saisC]
    evs (first | apply ev_stage1 | apply ev_stage3 | apply ih)

end

theorem ev_enq (sj : BitVec 64) (s : IndSt) (t c : Nat) (x : Int) : Ev u r (s.enqC sj t c x) := by
  unfold IndSt.enqC; evs (apply ev_enqueue)
theorem ev_enqL (sj : BitVec 64) (s : IndSt) (t c : Nat) (x : Int) : Ev u r (s.enqLC sj t c x) := by
  unfold IndSt.enqLC; evs (apply ev_enqueueL)
theorem ev_deq (sj : BitVec 64) (s : IndSt) (t c : Nat) : Ev u r (s.deqC sj t c) := by
  unfold IndSt.deqC; evs (apply ev_dequeue)
theorem ev_newQueues (k : Nat) : Ev u r (newQueuesC k) := by unfold newQueuesC; evs (fail)
theorem ev_deleteQueues (t : Nat) (s : IndSt) : Ev u r (deleteQueuesC t s) := by
  unfold deleteQueuesC; evs (apply ev_destroy)
theorem ev_seed {S : Type} [SaStore S] (e : IndEnv) (sa : S) (num : Nat) (s : IndSt) : Ev u r (seedC e sa num s) := by
  unfold seedC; evs (apply ev_enqL)
theorem ev_induceL (e : IndEnv) (c1 : Nat) (q : Int) (s : IndSt) : Ev u r (induceLC e c1 q s) := by
  unfold induceLC; evs (apply ev_enq)
theorem ev_firstRow (e : IndEnv) (s : IndSt) : Ev u r (firstRowC e s) := by
  unfold firstRowC; evs (first | apply ev_deq | apply ev_induceL)
theorem ev_visit1 (e : IndEnv) (c t : Nat) (m q : Int) (s : IndSt) : Ev u r (visit1C e c t m q s) := by
  unfold visit1C; evs (first | apply ev_enqL | apply ev_induceL)
theorem ev_step1 (e : IndEnv) (c t : Nat) (x : IndSt × Int) : Ev u r (step1C e c t x) := by
  unfold step1C; evs (first | apply ev_deq | apply ev_visit1)
theorem ev_drain1 (e : IndEnv) (fuel c t : Nat) (s : IndSt) : Ev u r (drain1C e fuel c t s) := by
  unfold drain1C; evs (apply ev_step1)
theorem ev_pass1 (e : IndEnv) (fuel : Nat) (s : IndSt) : Ev u r (pass1C e fuel s) := by
  unfold pass1C; evs (apply ev_drain1)
theorem ev_visit2 (e : IndEnv) (c : Nat) (q : Int) (s : IndSt) : Ev u r (visit2C e c q s) := by
  unfold visit2C; evs (apply ev_enq)
theorem ev_step2 (e : IndEnv) (c t : Nat) (s : IndSt) : Ev u r (step2C e c t s) := by
  unfold step2C; evs (first | apply ev_deq | apply ev_visit2)
theorem ev_pass2 (e : IndEnv) (fuel : Nat) (s : IndSt) : Ev u r (pass2C e fuel s) := by
  unfold pass2C; evs (apply ev_step2)
theorem ev_induceBwt {S : Type} [SaStore S] [SaBlocks S] (qj : Nat → Nat → Nat → Nat → BitVec 64) (bj : Nat → Nat)
    (sj : BitVec 64) (fuel : Nat) (buf : Mem Nat) (sa : S) (ct : Container) : Ev u r (induceBwtC qj bj sj fuel buf sa ct) := by
  unfold induceBwtC
  evs (first | apply ev_newQueues | apply ev_seed | apply ev_freeAll | apply ev_firstRow | apply ev_pass1 | apply ev_deleteQueues | apply ev_pass2)

section
variable {S : Type} [SaStore S] [SaBlocks S]

theorem ev_branch (w : World) (s : Mem Nat) (T1 : PackedArray) (ht : HashTable) (ct : Container) :
    Ev u r (branchC S w s T1 ht ct) := by
  unfold branchC
  evs (first | apply ev_newAll | apply ev_sais | apply ev_deletePacked | apply ev_induceBwt)

end

theorem ev_some {α : Type} {x : Th α} (h : Ev u r x) : Ev u r (someC x) := by unfold someC; evs (fail)
theorem ev_finish (w : World) (s : Mem Nat) (T1 : PackedArray) (ct : Container) : Ev u r (finishC w s T1 ct) := by
  unfold finishC
  evs (first | apply ev_some | apply ev_branch)

/-! ## The functions that read the text -/

theorem ev_insertString (junk : Fresh) (ht : HashTable) (m p : Nat) :
    Ev True r (insertStringC junk ht m p) := by
  unfold insertStringC; evs (apply ev_makeRoom)
theorem ev_exFound (junk : Fresh) (i : Nat) (s : ExSt) : Ev True r (exFoundC junk i s) := by
  unfold exFoundC; evs (apply ev_insertString)
theorem ev_exMaybe (junk : Fresh) (i : Nat) (s : ExSt) : Ev True r (exMaybeC junk i s) := by
  unfold exMaybeC; evs (apply ev_exFound)
theorem ev_exStep (junk : Fresh) (i : Nat) (s : ExSt) : Ev True r (exStepC junk i s) := by
  unfold exStepC; evs (apply ev_exMaybe)
theorem ev_extractRest (junk : Fresh) (n : Nat) : Ev True r (extractRestC junk n) := by
  unfold extractRestC; evs (first | apply ev_newTable | apply ev_exStep)
theorem ev_sortLMS (sorter : Sorter) (pj : Nat → Nat) (junk : Fresh) (ct : Container) :
    Ev True r (sortLMSC sorter pj junk ct) := by
  unfold sortLMSC; evs (fail)
theorem ev_createShortened (tj : Nat → BitVec 64) (sj : BitVec 64) (n : Nat) (ct : Container) :
    Ev True r (createShortenedC tj sj n ct) := by
  unfold createShortenedC; evs (fail)

end

theorem textOk_release {β : Type} {f : Unit → Th β} (freeT : Bool) (hf : ∀ a, Quiet (f a)) :
    TextOk freeT (releaseC freeT >>= f) := by
  cases freeT with
  | false => exact .of_quiet (hf _)
  | true => exact .relT _ rfl (hf _)

theorem textOk_bwtIs (w : World) (n : Nat) (freeT : Bool) : TextOk freeT (bwtIsC w n freeT) := by
  unfold bwtIsC
  refine .bind .newC' fun _ => .bind (ev_extractRest _ _) fun ct => .bind (ev_sortLMS _ _ _ _) fun x =>
    .bind (ev_createShortened _ _ _ _) fun T1 => textOk_release _ fun _ => ?_
  evs (first | apply ev_finish | apply ev_deleteContainer)

/-- `bwt_string` releases the text only if it is asked to, at most once, and after that it does not touch it any more. -/
theorem textOk_bwtString (w : World) (null : Bool) (n : Nat) (freeT : Bool) :
    TextOk freeT (bwtStringC w null n freeT) := by
  unfold bwtStringC
  split
  · exact .ret _
  · exact textOk_bwtIs w n freeT

end Flbwt
