import Verif.PropsTop
import Verif.PropsSais

/-!
# Property C03: when `bwt_string` throws `std::invalid_argument`

`NI m`: the computation `m` does not end with `std::invalid_argument`. One lemma per function of the model.
-/

namespace Flbwt

open SaStore

/-- not `std::invalid_argument` -/
structure NI {α : Type _} (m : M α) : Prop where
  ne : m ≠ .error (.throw .invalidArgument)

section
variable {α β σ : Type _}

theorem NI.ok {a : α} : NI (.ok a : M α) := ⟨by simp⟩
theorem NI.pure' {a : α} : NI (pure a : M α) := ⟨by simp [pure, Except.pure]⟩
theorem NI.ub {f : Fault} : NI (.error (.ub f) : M α) := ⟨by simp⟩
theorem NI.rt : NI (.error (.throw .runtimeError) : M α) := ⟨by simp⟩
theorem NI.bind {m : M α} {f : α → M β} (h : NI m) (hf : ∀ a, NI (f a)) : NI (m >>= f) := by
  cases m with
  | ok a => exact hf a
  | error e =>
    refine ⟨fun hc => h.ne ?_⟩
    have : (Except.error e : M β) = .error (.throw .invalidArgument) := hc
    cases this; rfl
theorem NI.map {m : M α} {f : α → β} (h : NI m) : NI (f <$> m) := by
  cases m with
  | ok a => exact NI.ok
  | error e =>
    refine ⟨fun hc => h.ne ?_⟩
    have : (Except.error e : M β) = .error (.throw .invalidArgument) := hc
    cases this; rfl
theorem NI.rd {m : Mem α} {i : Nat} : NI (m.rd i) := by unfold Mem.rd; split; exacts [NI.ok, NI.ub]
theorem NI.wr {m : Mem α} {i : Nat} {v : α} : NI (m.wr i v) := by unfold Mem.wr; split; exacts [NI.ok, NI.ub]
theorem NI.ite {c : Prop} [Decidable c] {a b : M α} (h1 : NI a) (h2 : NI b) : NI (if c then a else b) := by
  split; exacts [h1, h2]
theorem NI.loopUp {lo cnt : Nat} {s : σ} {f : Nat → σ → M σ} (h : ∀ i s, NI (f i s)) : NI (loopUp lo cnt s f) := by
  induction cnt generalizing lo s with
  | zero => exact NI.ok
  | succ c ih => exact NI.bind (h _ _) (fun _ => ih)
theorem NI.loopDown {hi : Nat} {s : σ} {f : Nat → σ → M σ} (h : ∀ i s, NI (f i s)) : NI (loopDown hi s f) := by
  induction hi generalizing s with
  | zero => exact NI.ok
  | succ c ih => exact NI.bind (h _ _) (fun _ => ih)
theorem NI.whileM {fuel : Nat} {s : σ} {f : σ → M (σ ⊕ β)} (h : ∀ s, NI (f s)) : NI (whileM fuel s f) := by
  induction fuel generalizing s with
  | zero => exact NI.ub
  | succ c ih =>
    refine NI.bind (h _) (fun r => ?_)
    cases r with
    | inl s' => exact ih
    | inr b => exact NI.ok
theorem NI.mapM {f : α → M β} (h : ∀ a, NI (f a)) : ∀ l : List α, NI (l.mapM f)
  | [] => NI.pure'
  | a :: l => by
    rw [List.mapM_cons]
    exact NI.bind (h a) (fun _ => NI.bind (NI.mapM h l) (fun _ => NI.pure'))
end

/-- goes through a `do` block; the first argument proves the calls -/
macro "nis" "(" call:tacticSeq ")" : tactic => `(tactic| (repeat' with_reducible (first
  | exact NI.ok | exact NI.ub | exact NI.rt | exact NI.pure' | exact NI.rd | exact NI.wr | assumption
  | ($call)
  | apply NI.bind | apply NI.map | apply NI.loopUp | apply NI.loopDown | apply NI.whileM | apply NI.ite
  | split | intro _)))

/-! ## Packed arrays and queues -/

theorem ni_shl64 (x : BitVec 64) (s : Nat) : NI (shl64 x s) := by unfold shl64; nis (fail)
theorem ni_shr64 (x : BitVec 64) (s : Nat) : NI (shr64 x s) := by unfold shr64; nis (fail)
theorem ni_msb (n : Nat) : NI (positionOfMsb n) := by unfold positionOfMsb; nis (fail)
theorem ni_getBits (sj : BitVec 64) (arr : Mem (BitVec 64)) (b i : Nat) : NI (getBits sj arr b i) := by
  unfold getBits; dsimp only; nis (first | apply ni_shl64 | apply ni_shr64)
theorem ni_getValue (sj : BitVec 64) (pa : PackedArray) (i : Nat) : NI (pa.getValue sj i) := ni_getBits _ _ _ _
theorem ni_setValue (sj : BitVec 64) (pa : PackedArray) (i : Nat) (v : BitVec 64) : NI (pa.setValue sj i v) := by
  unfold PackedArray.setValue; dsimp only; nis (first | apply ni_shl64 | apply ni_shr64)

theorem ni_deref (q : Queue) (p : Option Nat) : NI (q.deref p) := by unfold Queue.deref; nis (fail)
theorem ni_toIdx (i : Int) : NI (Queue.toIdx i) := by unfold Queue.toIdx; nis (fail)
theorem ni_growBack (q : Queue) : NI q.growBack := by unfold Queue.growBack; dsimp only; nis (first | apply ni_deref)
theorem ni_growFront (q : Queue) : NI q.growFront := by unfold Queue.growFront; dsimp only; nis (first | apply ni_deref)
theorem ni_enqueue (sj : BitVec 64) (q : Queue) (x : BitVec 64) : NI (q.enqueue sj x) := by
  unfold Queue.enqueue; dsimp only; nis (first | apply ni_growBack | apply ni_deref | apply ni_toIdx | apply ni_setValue)
theorem ni_enqueueL (sj : BitVec 64) (q : Queue) (x : BitVec 64) : NI (q.enqueueL sj x) := by
  unfold Queue.enqueueL; dsimp only; nis (first | apply ni_growFront | apply ni_deref | apply ni_toIdx | apply ni_setValue)
theorem ni_dequeue (sj : BitVec 64) (q : Queue) : NI (q.dequeue sj) := by
  unfold Queue.dequeue; dsimp only; nis (first | apply ni_deref | apply ni_toIdx | apply ni_getValue)
theorem ni_destroy (f : Nat) (q : Queue) : NI (q.destroy f) := by unfold Queue.destroy; nis (first | apply ni_deref)

/-! ## Hash table -/

theorem ni_realloc (j : Fresh) (b : Mem Nat) (n : Nat) : NI (reallocBytes j b n) := by unfold reallocBytes; nis (fail)
namespace HashTable
theorem ni_new (k n : Nat) : NI (HashTable.new k n) := by unfold HashTable.new; dsimp only; nis (first | apply ni_msb)
theorem ni_hash (k : Nat) (T : Mem Nat) (m p : Nat) : NI (hashFunction k T m p) := by unfold hashFunction; nis (fail)
theorem ni_getLength (b : Mem Nat) (p : Nat) : NI (getLength b p) := by unfold getLength; nis (fail)
theorem ni_shift (p : Nat) (x : Mem Nat × Nat) : NI (setLengthShift p x) := by
  obtain ⟨a, b⟩ := x; unfold setLengthShift; nis (fail)
theorem ni_write (x : Mem Nat × Nat × Nat) : NI (setLengthWrite x) := by
  obtain ⟨a, b, c⟩ := x; unfold setLengthWrite; nis (fail)
theorem ni_setLength (b : Mem Nat) (p l : Nat) : NI (setLength b p l) := by unfold setLength; nis (first | apply ni_shift | apply ni_write)
theorem ni_info (n : Nat) (b : Mem Nat) (p l : Nat) : NI (stringInfoLength n b p l) := by unfold stringInfoLength; nis (fail)
theorem ni_getPointer (b : Mem Nat) (p : Nat) : NI (getPointer b p) := by unfold getPointer; nis (fail)
theorem ni_setPointer (b : Mem Nat) (p x : Nat) : NI (setPointer b p x) := by unfold setPointer; nis (fail)
theorem ni_lenlen (b : Mem Nat) (p : Nat) : NI (getLenlen b p) := by unfold getLenlen; nis (fail)
theorem ni_calc (m : Nat) : NI (calculateLenlen m) := by unfold calculateLenlen; nis (fail)
theorem ni_getName (n : Nat) (b : Mem Nat) (p : Nat) : NI (getName n b p) := by unfold getName; nis (first | apply ni_getLength)
theorem ni_setName (n : Nat) (b : Mem Nat) (p x : Nat) : NI (setName n b p x) := by unfold setName; nis (first | apply ni_getLength)
theorem ni_first (b : Mem Nat) (p : Nat) : NI (getFirstCharacterPointer b p) := by unfold getFirstCharacterPointer; nis (fail)
theorem ni_compare (T : Mem Nat) (p : Nat) (b : Mem Nat) (x m : Nat) : NI (compareLoop T p b x m) := by
  unfold compareLoop; nis (fail)
theorem ni_insertStep (n : Nat) (b T : Mem Nat) (m p : Nat) (x : Nat × Option Nat × Nat) : NI (insertStep n b T m p x) := by
  obtain ⟨q, r, c⟩ := x; unfold insertStep; nis (first | apply ni_getLength | apply ni_getPointer | apply ni_info | apply ni_lenlen | apply ni_compare)
theorem ni_writeRecord (n : Nat) (b T : Mem Nat) (m p l r : Nat) : NI (writeRecord n b T m p l r) := by
  unfold writeRecord; nis (first | apply ni_setLength)
theorem ni_link (ht : HashTable) (h q : Nat) (r : Option Nat) (q2 : Nat) : NI (linkBlock ht h q r q2) := by
  unfold linkBlock; nis (first | apply ni_setPointer)
theorem ni_addI64 (a b : Int) : NI (addI64 a b) := by unfold addI64; nis (fail)
theorem ni_limit (x : Nat) : NI (spaceLimit x) := by unfold spaceLimit; apply ni_addI64
theorem ni_room (j : Fresh) (ht : HashTable) (h q : Nat) (r : Option Nat) (s : Nat) : NI (makeRoom j ht h q r s) := by
  unfold makeRoom; dsimp only; nis (first | apply ni_limit | apply ni_realloc | apply ni_link)
theorem ni_insert (j : Fresh) (ht : HashTable) (T : Mem Nat) (m p : Nat) : NI (insertString j ht T m p) := by
  unfold insertString; dsimp only; nis (first | apply ni_hash | apply ni_insertStep | apply ni_calc | apply ni_room | apply ni_writeRecord)
theorem ni_findStep (n : Nat) (b T : Mem Nat) (m p q : Nat) : NI (findStep n b T m p q) := by
  unfold findStep; nis (first | apply ni_getLength | apply ni_getPointer | apply ni_info | apply ni_lenlen | apply ni_compare | apply ni_getName)
theorem ni_find (ht : HashTable) (T : Mem Nat) (m p : Nat) : NI (findName ht T m p) := by
  unfold findName; nis (first | apply ni_hash | apply ni_findStep)
theorem ni_collectStep (n : Nat) (b : Mem Nat) (x : Nat × Mem Nat × Nat) : NI (collectStep n b x) := by
  obtain ⟨p, s, j⟩ := x; unfold collectStep; nis (first | apply ni_getLength | apply ni_getPointer | apply ni_info)
theorem ni_collect (ht : HashTable) (s : Mem Nat) (j : Nat) : NI (collect ht s j) := by
  unfold collect; nis (first | apply ni_collectStep)
end HashTable
open HashTable

/-! ## Front end -/

theorem ni_bump (a : Mem Nat) (i : Nat) : NI (bump a i) := by unfold bump; nis (fail)
theorem ni_exFound (j : Fresh) (T : Mem Nat) (i : Nat) (s : ExSt) : NI (exFound j T i s) := by
  unfold exFound; nis (first | apply ni_bump | apply ni_insert)
theorem ni_exMaybe (j : Fresh) (T : Mem Nat) (i : Nat) (s : ExSt) : NI (exMaybe j T i s) := by
  unfold exMaybe; nis (first | apply ni_exFound)
theorem ni_exStep (j : Fresh) (T : Mem Nat) (i : Nat) (s : ExSt) : NI (exStep j T i s) := by
  unfold exStep; nis (first | apply ni_bump | apply ni_exMaybe)
theorem ni_extract (j : Fresh) (T : Mem Nat) (n : Nat) : NI (extractLMS j T n) := by
  unfold extractLMS; dsimp only; nis (first | apply ni_new | apply ni_bump | apply ni_exStep)
theorem ni_cmpStep (b : Mem Nat) (x : Nat × Nat × Nat × Nat × Nat × Nat) : NI (cmpStep b x) := by
  obtain ⟨a1, a2, a3, a4, a5, a6⟩ := x; unfold cmpStep; nis (fail)
theorem ni_lmsCompare (b : Mem Nat) (x y : Nat) : NI (lmsCompare b x y) := by
  unfold lmsCompare; nis (first | apply ni_getLength | apply ni_first | apply ni_cmpStep)
theorem ni_setNames (n : Nat) (s : Mem Nat) (m : Nat) (b : Mem Nat) : NI (setNamesLoop n s m b) := by
  unfold setNamesLoop; nis (first | apply ni_setName)
theorem ni_writeHead (n : Nat) (T : Mem Nat) (h u : Nat) (b : Mem Nat) (r : Nat) : NI (writeHead n T h u b r) := by
  unfold writeHead; dsimp only; nis (first | apply ni_setLength | apply ni_setName | apply ni_lenlen)
theorem ni_writeEnd (n : Nat) (b : Mem Nat) (r : Nat) : NI (writeEnd n b r) := by unfold writeEnd; nis (first | apply ni_setLength)
theorem ni_minMax (s : Mem Nat) (u : Nat) : NI (minMax s u) := by unfold minMax; dsimp only; nis (fail)
theorem ni_readRange (s : Mem Nat) (m : Nat) : NI (readRange s m) := NI.mapM (fun _ => NI.rd) _
theorem ni_writeRange (s : Mem Nat) (l : List Nat) : NI (writeRange s l) := by unfold writeRange; nis (fail)

/-- `std::sort` throws only what the comparison throws. -/
def SortThrows (sorter : Sorter) : Prop := ∀ cmp l, (∀ a b, NI (cmp a b)) → NI (sorter cmp l)

theorem ni_sortLMS {sorter : Sorter} (hs : SortThrows sorter) (pj : Nat → Nat) (j : Fresh) (T : Mem Nat) (ct : Container) :
    NI (sortLMS sorter pj j T ct) := by
  have hs' : ∀ cmp l, (∀ a b, NI (cmp a b)) → NI (sorter cmp l) := hs
  unfold sortLMS sortNames sortHead; dsimp only
  nis (first | apply ni_calc | apply ni_realloc | apply ni_collect | apply ni_readRange | apply hs' | apply ni_lmsCompare | apply ni_writeRange | apply ni_setNames | apply ni_writeHead | apply ni_writeEnd | apply ni_minMax | apply ni_msb | apply ni_getLength | apply ni_first)
theorem ni_shMaybe (sj : BitVec 64) (ht : HashTable) (T : Mem Nat) (i : Nat) (s : ShSt) : NI (shMaybe sj ht T i s) := by
  unfold shMaybe; nis (first | apply ni_find | apply ni_setValue)
theorem ni_shStep (sj : BitVec 64) (ht : HashTable) (T : Mem Nat) (i : Nat) (s : ShSt) : NI (shStep sj ht T i s) := by
  unfold shStep; nis (first | apply ni_shMaybe)
theorem ni_short (tj : Nat → BitVec 64) (sj : BitVec 64) (T : Mem Nat) (n : Nat) (ct : Container) :
    NI (createShortened tj sj T n ct) := by
  unfold createShortened; dsimp only; nis (first | apply ni_msb | apply ni_setValue | apply ni_shStep)

/-! ## Suffix sorting -/

section
variable {S : Type} [SaStore S]

theorem ni_ld (s : St S) (p : Ptr) (i : Int) : NI (s.ld p i) := by unfold St.ld; nis (fail)
theorem ni_st (s : St S) (p : Ptr) (i v : Int) : NI (s.st p i v) := by unfold St.st; nis (fail)
theorem ni_chr (e : Env) (s : St S) (i : Int) : NI (chr e s i) := by unfold chr; nis (first | apply ni_getBits)
theorem ni_getCounts (e : Env) (C : Ptr) (n k : Nat) (s : St S) : NI (getCounts e C n k s) := by
  unfold getCounts; nis (first | apply ni_st | apply ni_ld | apply ni_chr)
theorem ni_getBuckets (C B : Ptr) (k : Nat) (f : Bool) (s : St S) : NI (getBuckets C B k f s) := by
  unfold getBuckets; dsimp only; nis (first | apply ni_st | apply ni_ld)
theorem ni_switch (B : Ptr) (x : Ind S) (c : Int) : NI (switchBucket B x c) := by unfold switchBucket; nis (first | apply ni_st | apply ni_ld)
theorem ni_testL (e : Env) (x : Ind S) (j : Int) : NI (testL e x j) := by unfold testL; nis (first | apply ni_chr)
theorem ni_testS (e : Env) (x : Ind S) (j : Int) : NI (testS e x j) := by unfold testS; nis (first | apply ni_chr)
theorem ni_pushL (e : Env) (x : Ind S) (j : Int) : NI (pushL e x j) := by unfold pushL; nis (first | apply ni_testL | apply ni_st)
theorem ni_pushS (e : Env) (x : Ind S) (j : Int) : NI (pushS e x j) := by unfold pushS; nis (first | apply ni_testS | apply ni_st)
theorem ni_body1 (e : Env) (B : Ptr) (i : Nat) (x : Ind S) : NI (induceBody1 e B i x) := by
  unfold induceBody1; dsimp only; nis (first | apply ni_ld | apply ni_st | apply ni_chr | apply ni_switch | apply ni_pushL)
theorem ni_body2 (e : Env) (B : Ptr) (i : Nat) (x : Ind S) : NI (induceBody2 e B i x) := by
  unfold induceBody2; dsimp only; nis (first | apply ni_ld | apply ni_st | apply ni_chr | apply ni_switch | apply ni_pushS)
theorem ni_recount (e : Env) (C B : Ptr) (n k : Nat) (s : St S) : NI (recount e C B n k s) := by
  unfold recount; nis (first | apply ni_getCounts)
theorem ni_induceSA (e : Env) (C B : Ptr) (n k : Nat) (s : St S) : NI (induceSA e C B n k s) := by
  unfold induceSA; dsimp only; nis (first | apply ni_recount | apply ni_getBuckets | apply ni_chr | apply ni_ld | apply ni_pushL | apply ni_body1 | apply ni_body2)
theorem ni_scan {τ : Type} (e : Env) (n : Nat) (s : St S) (t : τ) (act : Nat → Int → St S × τ → M (St S × τ))
    (h : ∀ i c x, NI (act i c x)) : NI (lmsScan e n s t act) := by
  unfold lmsScan; dsimp only; nis (first | apply ni_addI64 | apply ni_chr | apply h)
theorem ni_putEnd (B : Ptr) (c v : Int) (s : St S) : NI (putEnd B c v s) := by unfold putEnd; nis (first | apply ni_ld | apply ni_st)
theorem ni_clear (lo n : Nat) (s : St S) : NI (clearFrom lo n s) := by unfold clearFrom; nis (first | apply ni_st)
theorem ni_runEnd (e : Env) (n : Nat) (s : St S) (p : Nat) (c : Int) : NI (runEnd e n s p c) := by
  unfold runEnd; nis (first | apply ni_chr)
theorem ni_compact (e : Env) (n : Nat) (s : St S) : NI (compact e n s) := by
  unfold compact; nis (first | apply ni_ld | apply ni_st | apply ni_chr | apply ni_runEnd)
theorem ni_sameBlock (e : Env) (s : St S) (p q : Int) (l : Nat) : NI (sameBlock e s p q l) := by
  unfold sameBlock; nis (first | apply ni_addI64 | apply ni_chr)
theorem ni_sameAs (e : Env) (s : St S) (p q a b : Int) : NI (sameAs e s p q a b) := by unfold sameAs; nis (first | apply ni_sameBlock)
theorem ni_name (e : Env) (n m : Nat) (s : St S) : NI (nameSubstrings e n m s) := by
  unfold nameSubstrings; dsimp only; nis (first | apply ni_addI64 | apply ni_ld | apply ni_st | apply ni_sameAs)
theorem ni_gather (n m ra : Nat) (s : St S) : NI (gatherNames n m ra s) := by
  unfold gatherNames; dsimp only; nis (first | apply ni_ld | apply ni_st)
theorem ni_mapBack (m ra : Nat) (s : St S) : NI (mapBack m ra s) := by unfold mapBack; nis (first | apply ni_ld | apply ni_st)
theorem ni_stage1 (j : Nat → BitVec 64) (e : Env) (fs n k : Nat) (s : St S) : NI (stage1 j e fs n k s) := by
  unfold stage1; dsimp only
  nis (first | apply ni_getCounts | apply ni_getBuckets | apply ni_clear | apply ni_scan | apply ni_putEnd | apply ni_induceSA | apply ni_compact | apply ni_st | apply ni_name)
theorem ni_stage3 (j : Nat → BitVec 64) (e : Env) (fs n k m : Nat) (s : St S) : NI (stage3 j e fs n k m s) := by
  unfold stage3; dsimp only
  nis (first | apply ni_getCounts | apply ni_getBuckets | apply ni_clear | apply ni_ld | apply ni_st | apply ni_chr | apply ni_putEnd | apply ni_induceSA)
theorem ni_afterRec (e : Env) (n m ra : Nat) (s : St S) : NI (afterRec e n m ra s) := by
  unfold afterRec; nis (first | apply ni_scan | apply ni_st | apply ni_mapBack)
theorem ni_sais (j : Nat → Nat → BitVec 64) (fuel : Nat) : ∀ (e : Env) (fs n k : Nat) (s : St S), NI (sais j fuel e fs n k s) := by
  induction fuel with
  | zero => intro e fs n k s; exact NI.ub
  | succ f ih =>
    intro e fs n k s
    unfold sais; dsimp only
    nis (first | apply ni_stage1 | apply ni_gather | apply ih | apply ni_afterRec | apply ni_stage3)
end

/-! ## Inducing -/

theorem ni_rdPtr (b : Mem Nat) (q : Int) : NI (rdPtr b q) := by unfold rdPtr; nis (fail)
namespace IndSt
theorem ni_setQ (s : IndSt) (t c : Nat) (x : Queue) : NI (s.setQ t c x) := by unfold setQ; nis (fail)
theorem ni_enq (sj : BitVec 64) (s : IndSt) (t c : Nat) (x : Int) : NI (s.enq sj t c x) := by
  unfold enq; nis (first | apply ni_enqueue | apply ni_setQ)
theorem ni_enqL (sj : BitVec 64) (s : IndSt) (t c : Nat) (x : Int) : NI (s.enqL sj t c x) := by
  unfold enqL; nis (first | apply ni_enqueueL | apply ni_setQ)
theorem ni_deq (sj : BitVec 64) (s : IndSt) (t c : Nat) : NI (s.deq sj t c) := by
  unfold deq; nis (first | apply ni_dequeue | apply ni_setQ)
theorem ni_putFront (s : IndSt) (c v : Nat) : NI (s.putFront c v) := by unfold putFront; nis (fail)
theorem ni_push (s : IndSt) (c v : Nat) : NI (s.push c v) := by unfold push; nis (fail)
theorem ni_putBack (s : IndSt) (c v : Nat) : NI (s.putBack c v) := by unfold putBack; nis (fail)
theorem ni_popBack (s : IndSt) (c : Nat) : NI (s.popBack c) := by unfold popBack; nis (first | apply ni_putBack)
theorem ni_lastBack (s : IndSt) (c : Nat) : NI (s.lastBack c) := by unfold lastBack; nis (fail)
end IndSt
open IndSt
theorem ni_delete (t : Nat) (s : IndSt) : NI (deleteQueues t s) := by unfold deleteQueues; nis (first | apply ni_destroy)
theorem ni_seedChar (e : IndEnv) (i : Nat) (q : Int) : NI (seedChar e i q) := by unfold seedChar; nis (first | apply ni_rdPtr)
theorem ni_seed {S : Type} [SaStore S] (e : IndEnv) (sa : S) (n : Nat) (s : IndSt) : NI (seed e sa n s) := by
  unfold seed; dsimp only; nis (first | apply ni_seedChar | apply ni_enqL)
theorem ni_starts (e : IndEnv) (s : IndSt) : NI (bucketStarts e s) := by unfold bucketStarts; nis (fail)
theorem ni_stacks (m : Mem Nat) (s : IndSt) : NI (stackStarts m s) := by unfold stackStarts; nis (fail)
theorem ni_induceL (e : IndEnv) (c : Nat) (q : Int) (s : IndSt) : NI (induceL e c q s) := by
  unfold induceL; nis (first | apply ni_enq | apply ni_rdPtr | apply ni_putFront)
theorem ni_firstRow (e : IndEnv) (s : IndSt) : NI (firstRow e s) := by
  unfold firstRow; dsimp only; nis (first | apply ni_deq | apply ni_rdPtr | apply ni_induceL | apply ni_push)
theorem ni_pushIf (t c d : Nat) (s : IndSt) : NI (pushIf t c d s) := by unfold pushIf; nis (first | apply ni_push)
theorem ni_visit1 (e : IndEnv) (c t : Nat) (m q : Int) (s : IndSt) : NI (visit1 e c t m q s) := by
  unfold visit1; nis (first | apply ni_rdPtr | apply ni_induceL | apply ni_pushIf | apply ni_enqL)
theorem ni_step1 (e : IndEnv) (c t : Nat) (x : IndSt × Int) : NI (step1 e c t x) := by
  obtain ⟨s, m⟩ := x; unfold step1; nis (first | apply ni_deq | apply ni_visit1)
theorem ni_rowStart (e : IndEnv) (c t : Nat) (s : IndSt) : NI (rowStart e c t s) := by unfold rowStart; nis (fail)
theorem ni_drain1 (e : IndEnv) (f c t : Nat) (s : IndSt) : NI (drain1 e f c t s) := by
  unfold drain1; nis (first | apply ni_rowStart | apply ni_step1)
theorem ni_pass1 (e : IndEnv) (f : Nat) (s : IndSt) : NI (pass1 e f s) := by unfold pass1; nis (first | apply ni_drain1)
theorem ni_ends (e : IndEnv) (s : IndSt) : NI (bucketEnds e s) := by unfold bucketEnds; nis (fail)
theorem ni_visit2 (e : IndEnv) (c : Nat) (q : Int) (s : IndSt) : NI (visit2 e c q s) := by
  unfold visit2; nis (first | apply ni_rdPtr | apply ni_enq | apply ni_lastBack | apply ni_putBack | apply ni_popBack)
theorem ni_step2 (e : IndEnv) (c t : Nat) (s : IndSt) : NI (step2 e c t s) := by
  unfold step2; nis (first | apply ni_deq | apply ni_visit2)
theorem ni_pass2 (e : IndEnv) (f : Nat) (s : IndSt) : NI (pass2 e f s) := by unfold pass2; nis (first | apply ni_step2)
theorem ni_induceBwt {S : Type} [SaStore S] (qj : Nat → Nat → Nat → Nat → BitVec 64) (bj : Nat → Nat) (sj : BitVec 64)
    (f : Nat) (b : Mem Nat) (sa : S) (ct : Container) : NI (induceBwt qj bj sj f b sa ct) := by
  unfold induceBwt; dsimp only
  nis (first | apply ni_seed | apply ni_starts | apply ni_stacks | apply ni_firstRow | apply ni_pass1 | apply ni_delete | apply ni_ends | apply ni_pass2)

/-! ## The whole -/

theorem ni_putC {S : Type} [SaStore S] (sa : S) (i : Nat) (v : Int) : NI (putC sa i v) := by unfold putC; nis (fail)
theorem ni_inc {S : Type} [SaStore S] (c : Nat) (sa : S) : NI (incEntries c sa) := by unfold incEntries; nis (apply ni_putC)
theorem ni_toPointers {S : Type} [SaStore S] (sj : BitVec 64) (b : Mem Nat) (x : Int) (s : Mem Nat) (T1 : PackedArray) (c : Nat)
    (sa : S) : NI (toPointers sj b x s T1 c sa) := by
  unfold toPointers; nis (first | apply ni_getValue | apply ni_getLength | apply ni_first | apply ni_putC)
theorem ni_branch (S : Type) [SaStore S] (w : World) (s : Mem Nat) (T1 : PackedArray) (ht : HashTable) (ct : Container) :
    NI (branch S w s T1 ht ct) := by
  unfold branch; dsimp only; nis (first | apply ni_sais | apply ni_inc | apply ni_toPointers | apply ni_induceBwt)
theorem ni_finish (w : World) (s : Mem Nat) (T1 : PackedArray) (ct : Container) : NI (finish w s T1 ct) := by
  unfold finish; dsimp only; nis (first | apply ni_msb | apply ni_branch)
theorem ni_bwtIs (w : World) (hs : SortThrows w.sorter) (T : Mem Nat) (n : Nat) (f : Bool) : NI (bwtIs w T n f) := by
  unfold bwtIs; dsimp only; nis (first | apply ni_extract | apply ni_sortLMS hs | apply ni_short | apply ni_finish)

/-- **C03** `bwt_string` throws `std::invalid_argument` exactly when the pointer is null or the length is 0 — for every
block, length, state of memory and value of `free_T`. -/
theorem C03_invalid_argument (w : World) (hs : SortThrows w.sorter) (T : Option (Mem Nat)) (n : Nat) (freeT : Bool) :
    bwtString w T n freeT = .error (.throw .invalidArgument) ↔ T = none ∨ n = 0 := by
  cases T with
  | none => simp [bwtString]
  | some T =>
    simp only [bwtString, reduceCtorEq, false_or]
    by_cases hn : n = 0
    · simp [hn]
    · rw [if_neg hn]
      exact ⟨fun h => absurd h (ni_bwtIs w hs T n freeT).ne, fun h => absurd h hn⟩

theorem ni_insM (cmp : Nat → Nat → M Bool) (h : ∀ a b, NI (cmp a b)) (a : Nat) : ∀ l, NI (insM cmp a l)
  | [] => NI.ok
  | b :: l => by
    have := ni_insM cmp h a l
    unfold insM; nis (first | apply h)

/-- insertion sort meets the hypothesis -/
theorem insSort_throws : SortThrows insSort := by
  intro cmp l h
  induction l with
  | nil => exact NI.ok
  | cons a l ih => exact NI.bind ih (fun r => ni_insM cmp h a r)

example (w : World) (h : w.sorter = insSort) : bwtString w (some (cString banana)) 6 true ≠ .error (.throw .invalidArgument) :=
  fun hc => by
    have := (C03_invalid_argument w (h ▸ insSort_throws) _ _ _).1 hc
    simp at this

end Flbwt
