import Verif.TimeModel

/-!
# The counting functions compute the same as the functions they count
-/

namespace Flbwt

open TM HashTable

variable {S : Type}

section
variable [SaStore S]
open SaStore

theorem ok_pure {α : Type} (a : α) : (Except.ok a : M α) = pure a := rfl

theorem erase_getCounts (e : Env) (C : Ptr) (n k : Nat) (s : St S) : erase (getCountsT e C n k s) = getCounts e C n k s := by
  simp only [getCountsT, getCounts, erase_bind, erase_loopUpT, erase_lift]

theorem erase_getBuckets (C B : Ptr) (k : Nat) (fin : Bool) (s : St S) :
    erase (getBucketsT C B k fin s) = getBuckets C B k fin s := by
  simp only [getBucketsT, getBuckets, erase_bind, erase_loopUpT, erase_lift, erase_pure]

theorem erase_recount (e : Env) (C B : Ptr) (n k : Nat) (s : St S) : erase (recountT e C B n k s) = recount e C B n k s := by
  simp only [recountT, recount, erase_ite, erase_getCounts, erase_pure]

theorem erase_induceSA (e : Env) (C B : Ptr) (n k : Nat) (s : St S) : erase (induceSAT e C B n k s) = induceSA e C B n k s := by
  simp only [induceSAT, induceSA, erase_bind, erase_loopUpT, erase_loopDownT, erase_lift, erase_pure, erase_recount, erase_getBuckets,
    bind_assoc]

theorem erase_lmsScan {τ : Type} (e : Env) (n : Nat) (s : St S) (t : τ) (act : Nat → Int → St S × τ → M (St S × τ)) :
    erase (lmsScanT e n s t act) = lmsScan e n s t act := by
  simp only [lmsScanT, lmsScan, erase_bind, erase_loopDownT, erase_lift, erase_pure]

theorem erase_clearFrom (lo n : Nat) (s : St S) : erase (clearFromT lo n s) = clearFrom lo n s := by
  simp only [clearFromT, clearFrom, erase_loopUpT, erase_lift]

theorem erase_runEnd (e : Env) (n : Nat) (s : St S) (p : Nat) (c0 : Int) : erase (runEndT e n s p c0) = runEnd e n s p c0 := by
  simp only [runEndT, runEnd, erase_whileT, erase_lift]

theorem erase_compact (e : Env) (n : Nat) (s : St S) : erase (compactT e n s) = compact e n s := by
  simp only [compactT, compactBodyT, compact, erase_loopUpT, erase_bind, erase_lift, erase_ite, erase_pure, erase_runEnd, compactStore]

theorem erase_sameBlock (e : Env) (s : St S) (p q : Int) (plen : Nat) : erase (sameBlockT e s p q plen) = sameBlock e s p q plen := by
  simp only [sameBlockT, sameBlock, erase_whileT, erase_lift]

theorem erase_sameAs (e : Env) (s : St S) (p q plen qlen : Int) : erase (sameAsT e s p q plen qlen) = sameAs e s p q plen qlen := by
  simp only [sameAsT, sameAs, erase_ite, erase_sameBlock, erase_pure]

theorem erase_nameSubstrings (e : Env) (n m : Nat) (s : St S) : erase (nameSubstringsT e n m s) = nameSubstrings e n m s := by
  simp only [nameSubstringsT, nameBodyT, nameSubstrings, erase_bind, erase_loopUpT, erase_lift, erase_pure, erase_sameAs, nameStore]

theorem erase_gatherNames (n m ra : Nat) (s : St S) : erase (gatherNamesT n m ra s) = gatherNames n m ra s := by
  simp only [gatherNamesT, gatherNames, erase_bind, erase_loopDownT, erase_lift, erase_pure]

theorem erase_mapBack (m ra : Nat) (s : St S) : erase (mapBackT m ra s) = mapBack m ra s := by
  simp only [mapBackT, mapBack, erase_loopUpT, erase_lift]

theorem erase_stage1 (junk : Nat → BitVec 64) (e : Env) (fs n k : Nat) (s : St S) :
    erase (stage1T junk e fs n k s) = stage1 junk e fs n k s := by
  simp only [stage1T, stage1, erase_bind, erase_getCounts, erase_getBuckets, erase_clearFrom, erase_lmsScan, erase_induceSA,
    erase_compact, erase_nameSubstrings, erase_pure]

theorem erase_stage3 (junk : Nat → BitVec 64) (e : Env) (fs n k m : Nat) (s : St S) :
    erase (stage3T junk e fs n k m s) = stage3 junk e fs n k m s := by
  simp only [stage3T, stage3, erase_bind, erase_getCounts, erase_getBuckets, erase_clearFrom, erase_loopDownT, erase_induceSA,
    erase_lift, erase_pure]

theorem erase_afterRec (e : Env) (n m ra : Nat) (s : St S) : erase (afterRecT e n m ra s) = afterRec e n m ra s := by
  simp only [afterRecT, afterRec, erase_bind, erase_lmsScan, erase_mapBack]

theorem erase_sais (junk : Nat → Nat → BitVec 64) (fuel : Nat) : ∀ (e : Env) (fs n k : Nat) (s : St S),
    erase (saisT junk fuel e fs n k s) = sais junk fuel e fs n k s := by
  induction fuel with
  | zero => intro e fs n k s; rfl
  | succ fuel ih =>
    intro e fs n k s
    unfold saisT sais
    rw [erase_bind, erase_stage1]
    congr 1
    funext x
    rw [erase_bind]
    unfold recurseT
    simp only [erase_ite, erase_bind, erase_gatherNames, ih, erase_afterRec, erase_pure, erase_stage3]
    split
    · simp only [bind_assoc]
    · rfl

end

theorem erase_destroy (fuel : Nat) (q : Queue) : erase (q.destroyT fuel) = q.destroy fuel := by
  simp only [Queue.destroyT, Queue.destroy, erase_whileT, erase_lift]
  rfl

theorem erase_deleteQueues (t : Nat) (s : IndSt) : erase (deleteQueuesT t s) = deleteQueues t s := by
  simp only [deleteQueuesT, deleteQueues, erase_bind, erase_loopUpT, erase_lift, erase_destroy, erase_pure]

theorem erase_seed [SaStore S] (e : IndEnv) (sa : S) (num : Nat) (s : IndSt) : erase (seedT e sa num s) = seed e sa num s := by
  simp only [seedT, seed, erase_loopDownT, erase_lift]

theorem erase_bucketStarts (e : IndEnv) (s : IndSt) : erase (bucketStartsT e s) = bucketStarts e s := by
  simp only [bucketStartsT, bucketStarts, erase_bind, erase_loopUpT, erase_lift, erase_pure]

theorem erase_stackStarts (NL : Mem Nat) (s : IndSt) : erase (stackStartsT NL s) = stackStarts NL s := by
  simp only [stackStartsT, stackStarts, erase_loopUpT, erase_lift]

theorem erase_drain1 (e : IndEnv) (fuel c t : Nat) (s : IndSt) : erase (drain1T e fuel c t s) = drain1 e fuel c t s := by
  simp only [drain1T, drain1, erase_bind, erase_whileT, erase_lift]

theorem erase_pass1 (e : IndEnv) (fuel : Nat) (s : IndSt) : erase (pass1T e fuel s) = pass1 e fuel s := by
  simp only [pass1T, pass1, erase_bind, erase_loopUpT, erase_drain1]

theorem erase_bucketEnds (e : IndEnv) (s : IndSt) : erase (bucketEndsT e s) = bucketEnds e s := by
  simp only [bucketEndsT, bucketEnds, erase_bind, erase_loopUpT, erase_lift]

theorem erase_pass2 (e : IndEnv) (fuel : Nat) (s : IndSt) : erase (pass2T e fuel s) = pass2 e fuel s := by
  simp only [pass2T, pass2, erase_bind, erase_loopDownT, erase_whileT, erase_lift]

theorem erase_induceBwt [SaStore S] (qj : Nat → Nat → Nat → Nat → BitVec 64) (bj : Nat → Nat) (sj : BitVec 64)
    (fuel : Nat) (buf : Mem Nat) (sa : S) (ct : Container) :
    erase (induceBwtT qj bj sj fuel buf sa ct) = induceBwt qj bj sj fuel buf sa ct := by
  simp only [induceBwtT, induceBwt, erase_bind, erase_seed, erase_bucketStarts, erase_stackStarts, erase_lift, erase_pass1,
    erase_deleteQueues, erase_bucketEnds, erase_pass2]
  have : resultOf = fun s : IndSt => match s.last with
      | some l => (.ok ⟨s.bwt, l⟩ : M BwtResult)
      | none => .error (.ub .uninit) := by
    funext s
    unfold resultOf
    cases s.last <;> rfl
  rw [this]
  rfl

theorem erase_incEntries [SaStore S] (cnt : Nat) (sa : S) : erase (incEntriesT cnt sa) = incEntries cnt sa := by
  simp only [incEntriesT, incEntries, erase_loopUpT, erase_lift]

theorem erase_toPointers [SaStore S] (sj : BitVec 64) (buf : Mem Nat) (base : Int) (s : Mem Nat) (T1 : PackedArray) (cnt : Nat)
    (sa : S) : erase (toPointersT sj buf base s T1 cnt sa) = toPointers sj buf base s T1 cnt sa := by
  simp only [toPointersT, toPointers, erase_loopUpT, erase_lift]

theorem erase_branch (S : Type) [SaStore S] (w : World) (s : Mem Nat) (T1 : PackedArray) (ht : HashTable) (ct : Container) :
    erase (branchT S w s T1 ht ct) = branch S w s T1 ht ct := by
  simp only [branchT, branch, erase_bind, erase_sais, erase_incEntries, erase_toPointers, erase_induceBwt]

end Flbwt
