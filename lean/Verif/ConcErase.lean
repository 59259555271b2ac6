import Verif.ConcModel

/-!
# A thread alone does what the model with the heap says

`(fooC …).run = fooH …` for every function, so `bwtStringC` alone is `bwtStringH`.
-/

namespace Flbwt

open SaStore

section
variable {α β σ : Type} (X : Mem Nat)

theorem run_ite (c : Prop) [Decidable c] (x y : Th α) : (if c then x else y).run X = if c then x.run X else y.run X := by
  split <;> rfl

theorem H.pure_bind (a : α) (f : α → H β) : ((Pure.pure a : H α) >>= f) = f a := rfl

theorem H.assoc {γ : Type} (x : H α) (f : α → H β) (g : β → H γ) : ((x >>= f) >>= g) = (x >>= fun a => f a >>= g) := by
  funext h
  rw [H.bind_def, H.bind_def, H.bind_def]
  rcases x h with ⟨r, h'⟩
  cases r <;> rfl

theorem run_whenC (c : Prop) [Decidable c] (x : Th Unit) : (whenC c x).run X = whenH c (x.run X) := by
  unfold whenC whenH
  split <;> rfl

end

/-- unfold a function and its version with the heap, and push `run` through the code -/
macro "er" "[" ls:Lean.Parser.Tactic.simpLemma,* "]" : tactic =>
  `(tactic| simp only [run_bind, run_pure, run_lift, run_newC, run_mallocC, run_nonNullC, run_freeC, run_freeTextC, run_readT, H.pure_bind,
      run_reallocC, run_onBadAllocC, run_loopUpC, run_loopDownC, run_whileC, run_ite, run_whenC, $ls,*])

section
variable (X : Mem Nat)

theorem run_newQBlock (w : Nat) : (newQBlockC w).run X = newQBlockH w := by er [newQBlockC, newQBlockH]

theorem run_freeQBlock (w : Nat) : (freeQBlockC w).run X = freeQBlockH w := by er [freeQBlockC, freeQBlockH]

theorem run_enqueue (sj : BitVec 64) (q : Queue) (x : BitVec 64) : (q.enqueueC sj x).run X = q.enqueueH sj x := by
  er [Queue.enqueueC, Queue.enqueueH, run_newQBlock]

theorem run_enqueueL (sj : BitVec 64) (q : Queue) (x : BitVec 64) : (q.enqueueLC sj x).run X = q.enqueueLH sj x := by
  er [Queue.enqueueLC, Queue.enqueueLH, run_newQBlock]

theorem run_dequeue (sj : BitVec 64) (q : Queue) : (q.dequeueC sj).run X = q.dequeueH sj := by
  er [Queue.dequeueC, Queue.dequeueH, run_freeQBlock]

theorem run_destroyStep (q : Queue) : (q.destroyStepC).run X = q.destroyStepH := by
  unfold Queue.destroyStepC Queue.destroyStepH
  cases q.sb with
  | none => rfl
  | some a => er [run_freeQBlock]

theorem run_destroy (fuel : Nat) (q : Queue) : (q.destroyC fuel).run X = q.destroyH fuel := by
  er [Queue.destroyC, Queue.destroyH, run_destroyStep]

theorem run_newTable (htsize n : Nat) : (newTableC htsize n).run X = newTableH htsize n := by
  er [newTableC, newTableH]

theorem run_makeRoom (junk : Fresh) (ht : HashTable) (h q : Nat) (r : Option Nat) (space : Nat) :
    (makeRoomC junk ht h q r space).run X = makeRoomH junk ht h q r space := by
  er [makeRoomC, makeRoomH]

theorem run_insertString (junk : Fresh) (ht : HashTable) (m p : Nat) :
    (insertStringC junk ht m p).run X = insertStringH junk ht X m p := by
  er [insertStringC, insertStringH]
  congr 1; funext h
  congr 1; funext q
  congr 1; funext e
  cases e with
  | dup coll => rfl
  | free q r coll => er [run_makeRoom]

theorem run_deleteTable (ht : HashTable) : (deleteTableC ht).run X = deleteTableH ht := by
  er [deleteTableC, deleteTableH]

theorem run_deleteContainer (ct : Container) : (deleteContainerC ct).run X = deleteContainerH ct := by
  unfold deleteContainerC deleteContainerH
  cases ct.hashtable with
  | none => er []
  | some ht => er [run_deleteTable]

theorem run_exFound (junk : Fresh) (i : Nat) (s : ExSt) : (exFoundC junk i s).run X = exFoundH junk X i s := by
  er [exFoundC, exFoundH, run_insertString]

theorem run_exMaybe (junk : Fresh) (i : Nat) (s : ExSt) : (exMaybeC junk i s).run X = exMaybeH junk X i s := by
  er [exMaybeC, exMaybeH, run_exFound]

theorem run_exStep (junk : Fresh) (i : Nat) (s : ExSt) : (exStepC junk i s).run X = exStepH junk X i s := by
  er [exStepC, exStepH, run_exMaybe]

theorem run_extractRest (junk : Fresh) (n : Nat) : (extractRestC junk n).run X = extractRestH junk X n := by
  er [extractRestC, extractRestH, run_exStep, run_newTable]

theorem run_sortLMS (sorter : Sorter) (pj : Nat → Nat) (junk : Fresh) (ct : Container) :
    (sortLMSC sorter pj junk ct).run X = sortLMSH sorter pj junk X ct := by
  er [sortLMSC, sortLMSH]
  congr 1; funext p
  cases ct.hashtable with
  | none => er []
  | some ht => er []

theorem run_createShortened (tj : Nat → BitVec 64) (sj : BitVec 64) (n : Nat) (ct : Container) :
    (createShortenedC tj sj n ct).run X = createShortenedH tj sj X n ct := by
  er [createShortenedC, createShortenedH]

theorem run_deletePacked (p : PackedArray) : (deletePackedC p).run X = deletePackedH p := by
  er [deletePackedC, deletePackedH]

theorem run_newAll (l : List Blk) : (newAllC l).run X = newAllH l := by
  induction l with
  | nil => rfl
  | cons b l ih => er [newAllC, newAllH, ih]

theorem run_freeAll (l : List Blk) : (freeAllC l).run X = freeAllH l := by
  induction l with
  | nil => rfl
  | cons b l ih => er [freeAllC, freeAllH, ih]

section
variable {S : Type} [SaStore S] [SaBlocks S]

theorem run_placeCounters (n k fs : Nat) (junk : Nat → BitVec 64) (s : St S) :
    (placeCountersC n k fs junk s).run X = placeCountersH n k fs junk s := by
  er [placeCountersC, placeCountersH, run_newAll]

theorem run_freeCounters (k fs : Nat) (s : St S) : (freeCountersC k fs s).run X = freeCountersH k fs s := by
  er [freeCountersC, freeCountersH, run_freeAll]

theorem run_stage1 (junk : Nat → BitVec 64) (e : Env) (fs n k : Nat) (s : St S) :
    (stage1C junk e fs n k s).run X = stage1H junk e fs n k s := by
  er [stage1C, stage1H, run_placeCounters, run_freeCounters]

theorem run_stage3 (junk : Nat → BitVec 64) (e : Env) (fs n k m : Nat) (s : St S) :
    (stage3C junk e fs n k m s).run X = stage3H junk e fs n k m s := by
  er [stage3C, stage3H, run_placeCounters, run_freeCounters]

theorem run_sais (junk : Nat → Nat → BitVec 64) (fuel : Nat) : ∀ (e : Env) (fs n k : Nat) (s : St S),
    (saisC junk fuel e fs n k s).run X = saisH junk fuel e fs n k s := by
  induction fuel with
  | zero => intro e fs n k s; er [saisC, saisH]
  | succ fuel ih =>
    intro e fs n k s
    rw [saisC, saisH]
    er [run_stage1]
    congr 1; funext r
    by_cases c : r.2.2 < r.2.1
    · simp only [if_pos c]
      er [ih, run_stage3]
    · simp only [if_neg c]
      er [run_stage3]

end

theorem run_enq (sj : BitVec 64) (s : IndSt) (t c : Nat) (x : Int) : (s.enqC sj t c x).run X = s.enqH sj t c x := by
  er [IndSt.enqC, IndSt.enqH, run_enqueue]

theorem run_enqL (sj : BitVec 64) (s : IndSt) (t c : Nat) (x : Int) : (s.enqLC sj t c x).run X = s.enqLH sj t c x := by
  er [IndSt.enqLC, IndSt.enqLH, run_enqueueL]

theorem run_deq (sj : BitVec 64) (s : IndSt) (t c : Nat) : (s.deqC sj t c).run X = s.deqH sj t c := by
  er [IndSt.deqC, IndSt.deqH, run_dequeue]

theorem run_newQueues (k : Nat) : (newQueuesC k).run X = newQueuesH k := by er [newQueuesC, newQueuesH]

theorem run_deleteQueues (t : Nat) (s : IndSt) : (deleteQueuesC t s).run X = deleteQueuesH t s := by
  er [deleteQueuesC, deleteQueuesH, run_destroy]

theorem run_seed {S : Type} [SaStore S] (e : IndEnv) (sa : S) (num : Nat) (s : IndSt) :
    (seedC e sa num s).run X = seedH e sa num s := by
  er [seedC, seedH, run_enqL]

theorem run_induceL (e : IndEnv) (c1 : Nat) (q : Int) (s : IndSt) : (induceLC e c1 q s).run X = induceLH e c1 q s := by
  er [induceLC, induceLH, run_enq]

theorem run_firstRow (e : IndEnv) (s : IndSt) : (firstRowC e s).run X = firstRowH e s := by
  er [firstRowC, firstRowH, run_deq, run_induceL]

theorem run_visit1 (e : IndEnv) (c t : Nat) (m q : Int) (s : IndSt) : (visit1C e c t m q s).run X = visit1H e c t m q s := by
  er [visit1C, visit1H, run_induceL, run_enqL]

theorem run_step1 (e : IndEnv) (c t : Nat) (x : IndSt × Int) : (step1C e c t x).run X = step1H e c t x := by
  obtain ⟨s, m⟩ := x
  er [step1C, step1H, run_visit1, run_deq]

theorem run_drain1 (e : IndEnv) (fuel c t : Nat) (s : IndSt) : (drain1C e fuel c t s).run X = drain1H e fuel c t s := by
  er [drain1C, drain1H, run_step1]

theorem run_pass1 (e : IndEnv) (fuel : Nat) (s : IndSt) : (pass1C e fuel s).run X = pass1H e fuel s := by
  er [pass1C, pass1H, run_drain1]

theorem run_visit2 (e : IndEnv) (c : Nat) (q : Int) (s : IndSt) : (visit2C e c q s).run X = visit2H e c q s := by
  er [visit2C, visit2H, run_enq]

theorem run_step2 (e : IndEnv) (c t : Nat) (s : IndSt) : (step2C e c t s).run X = step2H e c t s := by
  er [step2C, step2H, run_visit2, run_deq]

theorem run_pass2 (e : IndEnv) (fuel : Nat) (s : IndSt) : (pass2C e fuel s).run X = pass2H e fuel s := by
  er [pass2C, pass2H, run_step2]

theorem run_induceBwt {S : Type} [SaStore S] [SaBlocks S] (qj : Nat → Nat → Nat → Nat → BitVec 64) (bj : Nat → Nat)
    (sj : BitVec 64) (fuel : Nat) (buf : Mem Nat) (sa : S) (ct : Container) :
    (induceBwtC qj bj sj fuel buf sa ct).run X = induceBwtH qj bj sj fuel buf sa ct := by
  unfold induceBwtC induceBwtH
  er [run_newQueues, run_seed, run_freeAll, run_firstRow, run_pass1, run_deleteQueues, run_pass2]
  iterate 8 (apply congrArg; funext _)
  apply congrArg; funext s
  iterate 7 (apply congrArg; funext _)
  cases (‹IndSt› : IndSt).last with
  | none => er []
  | some l => er []

section
variable {S : Type} [SaStore S] [SaBlocks S]

theorem run_branch (w : World) (s : Mem Nat) (T1 : PackedArray) (ht : HashTable) (ct : Container) :
    (branchC S w s T1 ht ct).run X = branchH S w s T1 ht ct := by
  er [branchC, branchH, run_newAll, run_sais, run_deletePacked, run_induceBwt]

end

theorem run_some {α : Type} (x : Th α) : (someC x).run X = someH (x.run X) := by er [someC, someH]

theorem run_finish (w : World) (s : Mem Nat) (T1 : PackedArray) (ct : Container) :
    (finishC w s T1 ct).run X = finishH w s T1 ct := by
  unfold finishC finishH
  cases ct.hashtable with
  | none => er []
  | some ht => er [run_some, run_branch]

theorem run_release (freeT : Bool) :
    ((releaseC freeT).run X >>= fun _ => (Pure.pure (release freeT X) : H (Option (Mem Nat)))) = releaseH freeT X := by
  er [releaseC, releaseH]

theorem run_bwtIs (w : World) (n : Nat) (freeT : Bool) :
    (bwtIsC w n freeT).run X = (bwtIsH w X n freeT >>= fun r => Pure.pure r.1) := by
  er [bwtIsC, bwtIsH, run_extractRest, run_sortLMS, run_createShortened, ← run_release, run_finish, run_deleteContainer,
    H.assoc]

/-- A thread that calls `bwt_string` with a text (`T ≠ NULL`) and is alone does exactly what the model with the heap says
(which returns in addition what the caller's pointer points to after the call). -/
theorem run_bwtString (w : World) (n : Nat) (freeT : Bool) :
    (bwtStringC w false n freeT).run X = (bwtStringH w (some X) n freeT >>= fun r => Pure.pure r.1) := by
  unfold bwtStringC bwtStringH
  by_cases c : n = 0
  · simp only [c, or_true, if_true]
    er []
    rfl
  · simp only [c, or_false, if_false, Bool.false_eq_true]
    exact run_bwtIs X w n freeT

/-- the same with `T = NULL` -/
theorem run_bwtString_null (w : World) (n : Nat) (freeT : Bool) :
    (bwtStringC w true n freeT).run X = (bwtStringH w none n freeT >>= fun r => Pure.pure r.1) := by
  unfold bwtStringC bwtStringH
  simp only [true_or, if_true]
  er []
  rfl

end

end Flbwt
