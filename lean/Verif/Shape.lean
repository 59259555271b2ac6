import Verif.Bwt

/-!
# The shape of a result, without any assumption

Partial correctness: what holds of every value `bwt_string` returns, whatever the text, the memory and the sort routine are.
-/

namespace Flbwt

/-- If `m` ends normally, the value satisfies `Q`. Used in proofs only. -/
def Whenever {α : Type _} (m : M α) (Q : α → Prop) : Prop := ∀ a, m = .ok a → Q a

section
variable {α β σ : Type _}

theorem Whenever.ok {a : α} {Q : α → Prop} (h : Q a) : Whenever (.ok a) Q := fun b e => by injection e with e; rw [← e]; exact h
theorem Whenever.error {e : Err} {Q : α → Prop} : Whenever (.error e) Q := fun b e => by cases e
theorem Whenever.bind {m : M α} {f : α → M β} {P : α → Prop} {Q : β → Prop} (h : Whenever m P) (hf : ∀ a, P a → Whenever (f a) Q) :
    Whenever (m >>= f) Q := by
  intro b e
  cases m with
  | error _ => cases e
  | ok a => exact hf a (h a rfl) b e
theorem Whenever.any {m : M α} : Whenever m (fun _ => True) := fun _ _ => trivial
theorem Whenever.ite {c : Prop} [Decidable c] {a b : M α} {Q : α → Prop} (h1 : Whenever a Q) (h2 : Whenever b Q) :
    Whenever (if c then a else b) Q := by split <;> assumption
theorem Whenever.then {m : M α} {f : α → M β} {Q : β → Prop} (hf : ∀ a, Whenever (f a) Q) : Whenever (m >>= f) Q :=
  Whenever.any.bind fun a _ => hf a

theorem Whenever.loopUp {P : σ → Prop} {f : Nat → σ → M σ} (h : ∀ i s, P s → Whenever (f i s) P) :
    ∀ (cnt lo : Nat) (s : σ), P s → Whenever (loopUp lo cnt s f) P
  | 0, _, _, hs => Whenever.ok hs
  | cnt + 1, lo, s, hs => (h lo s hs).bind fun s' hs' => Whenever.loopUp h cnt (lo + 1) s' hs'
theorem Whenever.loopDown {P : σ → Prop} {f : Nat → σ → M σ} (h : ∀ i s, P s → Whenever (f i s) P) :
    ∀ (hi : Nat) (s : σ), P s → Whenever (loopDown hi s f) P
  | 0, _, hs => Whenever.ok hs
  | hi + 1, s, hs => (h hi s hs).bind fun s' hs' => Whenever.loopDown h hi s' hs'
theorem Whenever.whileM {P : σ → Prop} {Q : β → Prop} {f : σ → M (σ ⊕ β)} (h : ∀ s, P s → Whenever (f s) (Sum.elim P Q)) :
    ∀ (fuel : Nat) (s : σ), P s → Whenever (whileM fuel s f) Q
  | 0, _, _ => Whenever.error
  | fuel + 1, s, hs => (h s hs).bind fun r hr => by
      cases r with
      | inl s' => exact Whenever.whileM h fuel s' hr
      | inr b => exact Whenever.ok hr

theorem Whenever.wr {m : Mem α} {i : Nat} {v : α} : Whenever (m.wr i v) (fun m' => m'.size = m.size) := by
  unfold Mem.wr; exact Whenever.ite (Whenever.ok rfl) Whenever.error

end

/-- The array `BWT` has `k` rows. Used in proofs only. -/
def Rows (k : Nat) (s : IndSt) : Prop := s.bwt.size = k

section
variable {k : Nat} {s : IndSt}

namespace IndSt

theorem setQ_rows (h : Rows k s) (t c : Nat) (x : Queue) : Whenever (s.setQ t c x) (Rows k) := Whenever.then fun _ => Whenever.ok h
theorem enq_rows (sj : BitVec 64) (h : Rows k s) (t c : Nat) (x : Int) : Whenever (s.enq sj t c x) (Rows k) :=
  Whenever.then fun _ => Whenever.then fun _ => setQ_rows h _ _ _
theorem enqL_rows (sj : BitVec 64) (h : Rows k s) (t c : Nat) (x : Int) : Whenever (s.enqL sj t c x) (Rows k) :=
  Whenever.then fun _ => Whenever.then fun _ => setQ_rows h _ _ _
theorem deq_rows (sj : BitVec 64) (h : Rows k s) (t c : Nat) : Whenever (s.deq sj t c) (fun r => Rows k r.2) :=
  Whenever.then fun _ => Whenever.then fun _ => (setQ_rows h _ _ _).bind fun _ h' => Whenever.ok h'
theorem putFront_rows (h : Rows k s) (c v : Nat) : Whenever (s.putFront c v) (Rows k) :=
  Whenever.then fun _ => Whenever.wr.bind fun _ h' => Whenever.then fun _ => Whenever.ok (h'.trans h)
theorem push_rows (h : Rows k s) (c v : Nat) : Whenever (s.push c v) (Rows k) :=
  Whenever.then fun _ => Whenever.wr.bind fun _ h' => Whenever.then fun _ => Whenever.ok (h'.trans h)
theorem putBack_rows (h : Rows k s) (c v : Nat) : Whenever (s.putBack c v) (Rows k) :=
  Whenever.then fun _ => Whenever.wr.bind fun _ h' => Whenever.then fun _ => Whenever.ok (h'.trans h)
theorem popBack_rows (h : Rows k s) (c : Nat) : Whenever (s.popBack c) (Rows k) :=
  Whenever.then fun _ => Whenever.then fun _ => Whenever.then fun _ => putBack_rows (by exact h) c _
theorem lastBack_rows (h : Rows k s) (c : Nat) : Whenever (s.lastBack c) (Rows k) :=
  Whenever.then fun _ => Whenever.then fun _ => Whenever.ok h

end IndSt

open IndSt

theorem deleteQueues_rows (h : Rows k s) (t : Nat) : Whenever (deleteQueues t s) (Rows k) := Whenever.then fun _ => Whenever.ok h

theorem seed_rows {S : Type} [SaStore S] (e : IndEnv) (sa : S) (num : Nat) (h : Rows k s) : Whenever (seed e sa num s) (Rows k) :=
  Whenever.loopDown (fun _ _ h => Whenever.ite (Whenever.then fun _ => enqL_rows _ h _ _ _) Whenever.error) _ _ h

theorem bucketStarts_rows (e : IndEnv) (h : Rows k s) : Whenever (bucketStarts e s) (Rows k)  := by
  unfold bucketStarts
  exact (Whenever.loopUp (P := fun st : IndSt × Nat => Rows k st.1)
    (fun _ _ h => Whenever.then fun _ => Whenever.then fun _ => Whenever.then fun _ => Whenever.ok (by exact h)) _ _ (s, 0) h).bind
    fun _ h' => Whenever.ok h'

theorem stackStarts_rows (NL : Mem Nat) (h : Rows k s) : Whenever (stackStarts NL s) (Rows k) := by
  unfold stackStarts
  exact Whenever.loopUp (fun _ _ h => Whenever.then fun _ => Whenever.then fun _ => Whenever.then fun _ => Whenever.ok (by exact h)) _ _ _ h

theorem induceL_rows (e : IndEnv) (c1 : Nat) (q : Int) (h : Rows k s) : Whenever (induceL e c1 q s) (Rows k) :=
  (enq_rows _ h _ _ _).bind fun _ h => Whenever.then fun _ => putFront_rows h _ _

theorem firstRow_rows (e : IndEnv) (h : Rows k s) : Whenever (firstRow e s) (Rows k) :=
  (deq_rows _ h _ _).bind fun _ h => Whenever.then fun _ => Whenever.wr.bind fun _ h' =>
    (induceL_rows (s := { (_ : IndSt) with bwt := _ }) e _ _ (h'.trans h)).bind fun _ h => push_rows h _ _

theorem visit1_rows (e : IndEnv) (c t : Nat) (m q : Int) (h : Rows k s) : Whenever (visit1 e c t m q s) (Rows k) :=
  Whenever.ite (Whenever.ok h) (Whenever.then fun _ => Whenever.ite
    ((induceL_rows e _ _ h).bind fun _ h => Whenever.ite (push_rows h _ _) (Whenever.ok h)) (enqL_rows _ h _ _ _))

theorem drain1_rows (e : IndEnv) (fuel c t : Nat) (h : Rows k s) : Whenever (drain1 e fuel c t s) (Rows k) :=
  Whenever.then fun m => Whenever.whileM (P := fun st : IndSt × Int => Rows k st.1)
    (fun _ h => Whenever.then fun _ => Whenever.ite (Whenever.ok (by exact h))
      ((deq_rows _ h _ _).bind fun _ h => (visit1_rows e _ _ _ _ h).bind fun _ h => Whenever.ok (by exact h))) _ (s, m) h

theorem pass1_rows (e : IndEnv) (fuel : Nat) (h : Rows k s) : Whenever (pass1 e fuel s) (Rows k) :=
  Whenever.loopUp (fun _ _ h => (drain1_rows e _ _ _ h).bind fun _ h => drain1_rows e _ _ _ h) _ _ _ h

theorem bucketEnds_rows (e : IndEnv) (h : Rows k s) : Whenever (bucketEnds e s) (Rows k) :=
  Whenever.then fun _ => Whenever.loopUp
    (fun _ _ h => Whenever.then fun _ => Whenever.then fun _ => Whenever.then fun _ => Whenever.ok (by exact h)) _ _ _ (by exact h)

theorem visit2_rows (e : IndEnv) (c : Nat) (q : Int) (h : Rows k s) : Whenever (visit2 e c q s) (Rows k) :=
  Whenever.then fun _ => Whenever.ite ((enq_rows _ h _ _ _).bind fun _ h => Whenever.ite (lastBack_rows h _)
    (Whenever.then fun _ => Whenever.ite (putBack_rows h _ _) (popBack_rows h _))) (Whenever.ok h)

theorem while2_rows (e : IndEnv) (fuel c t : Nat) (h : Rows k s) : Whenever (whileM fuel s (step2 e c t)) (Rows k) :=
  Whenever.whileM (P := Rows k) (fun _ h => Whenever.then fun _ => Whenever.ite (Whenever.ok (by exact h))
    ((deq_rows _ h _ _).bind fun _ h => (visit2_rows e _ _ h).bind fun _ h => Whenever.ok (by exact h))) _ s h

theorem pass2_rows (e : IndEnv) (fuel : Nat) (h : Rows k s) : Whenever (pass2 e fuel s) (Rows k) :=
  Whenever.loopDown (fun _ _ h => (while2_rows e _ _ _ h).bind fun _ h => while2_rows e _ _ _ h) _ _ h

end

theorem induceBwt_rows {S : Type} [SaStore S] (qj : Nat → Nat → Nat → Nat → BitVec 64) (bj : Nat → Nat) (sj : BitVec 64)
    (fuel : Nat) (buf : Mem Nat) (sa : S) (ct : Container) :
    Whenever (induceBwt qj bj sj fuel buf sa ct) (fun r => r.bwt.size = ct.n + 1) := by
  unfold induceBwt
  exact (seed_rows _ sa _ (k := ct.n + 1) (by exact rfl)).bind fun _ h => (bucketStarts_rows _ h).bind fun _ h =>
    (stackStarts_rows _ h).bind fun _ h => (firstRow_rows _ h).bind fun _ h => (pass1_rows _ _ h).bind fun _ h =>
    (deleteQueues_rows h _).bind fun _ h => (deleteQueues_rows h _).bind fun _ h =>
    (bucketEnds_rows _ (by exact h)).bind fun _ h => (pass2_rows _ _ h).bind fun _ h =>
    (deleteQueues_rows h _).bind fun _ h => (deleteQueues_rows h _).bind fun s h => by
      split
      · exact Whenever.ok h
      · exact Whenever.error

theorem branch_rows (S : Type) [SaStore S] (w : World) (s : Mem Nat) (T1 : PackedArray) (ht : HashTable) (ct : Container) :
    Whenever (branch S w s T1 ht ct) (fun r => r.bwt.size = ct.n + 1) :=
  Whenever.then fun _ => Whenever.then fun _ => Whenever.then fun _ => induceBwt_rows _ _ _ _ _ _ _

theorem finish_rows (w : World) (s : Mem Nat) (T1 : PackedArray) (ct : Container) :
    Whenever (finish w s T1 ct) (fun b => ∀ r, b = some r → r.bwt.size = ct.n + 1) := by
  have key : ∀ (m : M BwtResult), Whenever m (fun r => r.bwt.size = ct.n + 1) →
      Whenever (some <$> m) (fun b => ∀ r, b = some r → r.bwt.size = ct.n + 1) := by
    intro m h b e r er
    cases m with
    | error _ => cases e
    | ok a =>
      cases e
      cases er
      exact h r rfl
  unfold finish
  split
  · exact Whenever.error
  · refine Whenever.then fun _ => ?_
    exact Whenever.ite (key _ (branch_rows _ _ _ _ _ _)) <| Whenever.ite (key _ (branch_rows _ _ _ _ _ _)) <|
      Whenever.ite (key _ (branch_rows _ _ _ _ _ _)) <| Whenever.ite (key _ (branch_rows _ _ _ _ _ _)) <|
      Whenever.ite (key _ (branch_rows _ _ _ _ _ _)) <| Whenever.ok (fun _ e => by cases e)

theorem extractLMS_len (junk : Fresh) (T : Mem Nat) (n : Nat) :
    Whenever (extractLMS junk T n) (fun ct => ct.n = n ∧ (n ≤ 2 → ct.hashtable = none)) := by
  unfold extractLMS
  by_cases h : n ≤ 2
  · simp only [if_pos h]
    exact Whenever.ok ⟨rfl, fun _ => rfl⟩
  · simp only [if_neg h]
    exact Whenever.then fun _ => Whenever.then fun _ => Whenever.then fun _ => Whenever.then fun _ =>
      Whenever.then fun _ => Whenever.then fun _ => Whenever.then fun _ => Whenever.ok ⟨rfl, fun h' => absurd h' h⟩

theorem sortLMS_len (sorter : Sorter) (pj : Nat → Nat) (junk : Fresh) (T : Mem Nat) (ct : Container) :
    Whenever (sortLMS sorter pj junk T ct) (fun r => r.2.n = ct.n ∧ ct.hashtable ≠ none) := by
  unfold sortLMS
  split
  · exact Whenever.error
  · rename_i h
    refine Whenever.then fun _ => Whenever.then fun _ => Whenever.then fun _ => Whenever.then fun _ => Whenever.then fun _ =>
      Whenever.then fun _ => Whenever.then fun _ => Whenever.then fun _ => Whenever.then fun _ => Whenever.ok ⟨rfl, ?_⟩
    rw [h]; intro e; cases e

/-- Whatever `bwt_string` returns has `n + 1` rows, the text is released exactly if the caller said so, and the string was not
shorter than 3. -/
theorem bwtString_shape (w : World) (T : Option (Mem Nat)) (n : Nat) (freeT : Bool) :
    Whenever (bwtString w T n freeT) (fun r => T ≠ none ∧ r.2 = (if freeT then none else T) ∧ 3 ≤ n ∧
      ∀ b, r.1 = some b → b.bwt.size = n + 1) := by
  intro a e
  cases T with
  | none => cases e
  | some T =>
    by_cases h0 : n = 0
    · simp only [bwtString, h0, if_true] at e
      cases e
    · simp only [bwtString, if_neg h0] at e
      refine ⟨Option.some_ne_none _, Whenever.bind (Q := fun r => r.2 = (if freeT then none else some T) ∧ 3 ≤ n ∧ ∀ b, r.1 = some b → b.bwt.size = n + 1)
        (extractLMS_len _ _ _) (fun ct hct => (sortLMS_len _ _ _ _ _).bind fun r hr => Whenever.then fun _ =>
          (finish_rows _ _ _ _).bind fun b hb => Whenever.ok ⟨rfl, ?_, ?_⟩) a e⟩
      · rcases Nat.lt_or_ge n 3 with h | h
        · exact absurd (hct.2 (by omega)) hr.2
        · exact h
      · rw [hr.1, hct.1] at hb
        exact hb

end Flbwt
