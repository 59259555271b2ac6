import Verif.Frame
import Verif.PropsMisuse

/-!
# The program with memory and the program without

`Mirrors x m`: the computation `x` with a heap does what the computation `m` without does, unless a request is refused or
a block is released that is not live. No assumption on the arguments.

Not a model of code: lemmas for the theorems of `PropsMirror.lean`.
-/

namespace Flbwt

/-- `x` does what `m` does unless a request is refused: if it returns, so does `m`, with the same result, and no request was
refused; if it ends by an exception or a fault, so does `m`, or it is a null dereference after a refused request;
`std::bad_alloc` means that a request was refused. Used in proofs only. -/
def Reflects {α : Type _} (m : M α) (h : Heap) : Except HErr α × Heap → Prop
  | (.ok a, h') => m = .ok a ∧ h'.failed = h.failed
  | (.error (.prog e), h') => h.failed ≤ h'.failed ∧ (m = .error e ∨ (e = .ub .nullDeref ∧ h.failed < h'.failed))
  | (.error .badAlloc, h') => h.failed < h'.failed
  | (.error .badFree, h') => h.failed ≤ h'.failed

/-- Used in proofs only. -/
def Mirrors {α : Type _} (x : H α) (m : M α) : Prop := ∀ h, Reflects m h (x h)

namespace Mirrors
variable {α β σ : Type _}

theorem pure (a : α) : Mirrors (Pure.pure a : H α) (.ok a) := fun _ => ⟨rfl, rfl⟩

theorem lift (m : M α) : Mirrors (H.lift m) m := by
  intro h
  cases m with
  | ok a => exact ⟨rfl, rfl⟩
  | error e => exact ⟨Nat.le_refl _, Or.inl rfl⟩

theorem bind {x : H α} {f : α → H β} {m : M α} {g : α → M β} (hx : Mirrors x m) (hf : ∀ a, m = .ok a → Mirrors (f a) (g a)) :
    Mirrors (x >>= f) (m >>= g) := by
  intro h
  rw [H.bind_def]
  have h1 := hx h
  rcases hr : x h with ⟨r, h'⟩
  rw [hr] at h1
  cases r with
  | ok a =>
    obtain ⟨e1, e2⟩ := h1
    have h2 := hf a e1 h'
    subst e1
    show Reflects (g a) h (f a h')
    rcases hq : f a h' with ⟨q, h''⟩
    rw [hq] at h2
    cases q with
    | ok b => exact ⟨h2.1, h2.2.trans e2⟩
    | error e =>
      cases e with
      | prog e => exact ⟨e2 ▸ h2.1, h2.2.imp id fun t => ⟨t.1, e2 ▸ t.2⟩⟩
      | badAlloc =>
        have h2 : h'.failed < h''.failed := h2
        show h.failed < h''.failed
        omega
      | badFree =>
        have h2 : h'.failed ≤ h''.failed := h2
        show h.failed ≤ h''.failed
        omega
  | error e =>
    cases e with
    | prog e =>
      refine ⟨h1.1, h1.2.imp (fun t => ?_) id⟩
      rw [t]; rfl
    | badAlloc => exact h1
    | badFree => exact h1

/-- an action that has no counterpart -/
theorem skip {x : H Unit} {f : Unit → H β} {m : M β} (hx : Mirrors x (.ok ())) (hf : Mirrors (f ()) m) : Mirrors (x >>= f) m :=
  bind (g := fun _ => m) hx (fun _ _ => hf)

/-- a computation done in advance -/
theorem early {a : M α} {f : α → H β} {m : M β} (ho : ∀ v, a = .ok v → Mirrors (f v) m) (he : ∀ e, a = .error e → m = .error e) :
    Mirrors (H.lift a >>= f) m := by
  intro h
  rw [H.bind_def]
  cases a with
  | ok v => exact ho v rfl h
  | error e => exact ⟨Nat.le_refl _, Or.inl (he e rfl)⟩

theorem newB (f : Fam) (b : Blk) : Mirrors (newB f b) (.ok ()) := by
  intro h
  unfold Flbwt.newB
  by_cases hf : b.role.fam = f
  · rw [if_pos hf]
    by_cases hav : h.av h.reqs b = true
    · rw [if_pos hav]; exact ⟨rfl, rfl⟩
    · rw [if_neg hav]; exact Nat.lt_succ_self _
  · rw [if_neg hf]; exact Nat.le_refl _

theorem freeB (f : Fam) (b : Blk) : Mirrors (freeB f b) (.ok ()) := by
  intro h
  unfold Flbwt.freeB
  by_cases hf : b.role.fam = f
  · rw [if_pos hf]
    by_cases hl : 1 ≤ h.live b
    · rw [if_pos hl]; exact ⟨rfl, rfl⟩
    · rw [if_neg hl]; exact Nat.le_refl _
  · rw [if_neg hf]; exact Nat.le_refl _

theorem reallocB (old new : Nat) : Mirrors (reallocB old new) (.ok ()) := by
  intro h
  unfold Flbwt.reallocB
  by_cases hav : h.av h.reqs ⟨.buf, new⟩ = true
  · rw [if_pos hav]
    by_cases ho : old = 0
    · rw [if_pos ho]; exact ⟨rfl, rfl⟩
    · rw [if_neg ho]
      exact freeB .c ⟨.buf, old⟩ (h.got ⟨.buf, new⟩)
  · rw [if_neg hav]; exact ⟨Nat.le_succ _, Or.inr ⟨rfl, Nat.lt_succ_self _⟩⟩

theorem onBadAlloc {x c : H Unit} (hx : Mirrors x (.ok ())) (hc : Mirrors c (.ok ())) : Mirrors (onBadAlloc x c) (.ok ()) := by
  intro h
  unfold Flbwt.onBadAlloc
  have h1 := hx h
  rcases hr : x h with ⟨r, h'⟩
  rw [hr] at h1
  cases r with
  | ok a => exact h1
  | error e =>
    cases e with
    | prog e => exact h1
    | badFree => exact h1
    | badAlloc =>
      simp only
      have h1 : h.failed < h'.failed := h1
      have h2 := hc h'
      rcases hq : c h' with ⟨q, h''⟩
      rw [hq] at h2
      cases q with
      | ok u => exact Nat.lt_of_lt_of_le h1 (Nat.le_of_eq h2.2.symm)
      | error e =>
        cases e with
        | prog e =>
          refine ⟨Nat.le_trans (Nat.le_of_lt h1) h2.1, ?_⟩
          rcases h2.2 with c | ⟨c, d⟩
          · cases c
          · exact Or.inr ⟨c, Nat.lt_trans h1 d⟩
        | badAlloc => exact Nat.lt_trans h1 h2
        | badFree => exact Nat.le_trans (Nat.le_of_lt h1) h2

/-- The continuation after a `malloc` that returned the null pointer: it does not return. Used in proofs only. -/
def Lame (x : H α) (m : M α) : Prop := ∀ h, h.failed ≤ (x h).2.failed ∧
  match (x h).1 with
  | .ok _ => False
  | .error (.prog e) => m = .error e ∨ e = .ub .nullDeref
  | .error _ => True

theorem malloc {b : Blk} {f : Bool → H β} {m : M β} (ht : Mirrors (f true) m) (hf : Lame (f false) m) :
    Mirrors (mallocB b >>= f) m := by
  intro h
  rw [H.bind_def]
  unfold Flbwt.mallocB
  by_cases hb : b.role.fam = .c
  · rw [if_pos hb]
    by_cases hav : h.av h.reqs b = true
    · rw [if_pos hav]
      exact ht (h.got b)
    · rw [if_neg hav]
      show Reflects m h (f false h.refused)
      have := hf h.refused
      have hlt : h.failed < h.refused.failed := Nat.lt_succ_self _
      rcases hr : f false h.refused with ⟨r, h'⟩
      rw [hr] at this
      obtain ⟨h1, h2⟩ := this
      have h1 : h.refused.failed ≤ h'.failed := h1
      cases r with
      | ok a => exact h2.elim
      | error e =>
        cases e with
        | prog e =>
          refine ⟨by omega, ?_⟩
          have h2 : m = .error e ∨ e = .ub .nullDeref := h2
          exact h2.imp id fun t => ⟨t, by omega⟩
        | badAlloc => exact Nat.lt_of_lt_of_le hlt h1
        | badFree => exact Nat.le_trans (Nat.le_of_lt hlt) h1
  · rw [if_neg hb]; exact Nat.le_refl _

theorem Lame.null {f : Unit → H β} {m : M β} : Lame (nonNull false >>= f) m := fun h => ⟨Nat.le_refl _, Or.inr rfl⟩

theorem Lame.early {a : M α} {f : α → H β} {m : M β} (ho : ∀ v, a = .ok v → Lame (f v) m) (he : ∀ e, a = .error e → m = .error e) :
    Lame (H.lift a >>= f) m := by
  intro h
  rw [H.bind_def]
  cases a with
  | ok v => exact ho v rfl h
  | error e => exact ⟨Nat.le_refl _, Or.inl (he e rfl)⟩

theorem Lame.skip {x : H Unit} {f : Unit → H β} {m : M β} (hx : Mirrors x (.ok ())) (hf : Lame (f ()) m) : Lame (x >>= f) m := by
  intro h
  rw [H.bind_def]
  have h1 := hx h
  rcases hr : x h with ⟨r, h'⟩
  rw [hr] at h1
  cases r with
  | ok a =>
    have := hf h'
    exact ⟨Nat.le_trans (Nat.le_of_eq h1.2.symm) this.1, this.2⟩
  | error e =>
    cases e with
    | prog e =>
      refine ⟨h1.1, ?_⟩
      rcases h1.2 with c | ⟨c, _⟩
      · cases c
      · exact Or.inr c
    | badAlloc => exact ⟨Nat.le_of_lt h1, trivial⟩
    | badFree => exact ⟨h1, trivial⟩

theorem nonNull_true : Mirrors (nonNull true) (.ok ()) := fun h => ⟨rfl, rfl⟩

theorem ite {c : Prop} [Decidable c] {x y : H α} {m n : M α} (hx : c → Mirrors x m) (hy : ¬ c → Mirrors y n) :
    Mirrors (if c then x else y) (if c then m else n) := by
  by_cases h : c
  · rw [if_pos h, if_pos h]; exact hx h
  · rw [if_neg h, if_neg h]; exact hy h

theorem whenH {c : Prop} [Decidable c] {x : H Unit} (hx : Mirrors x (.ok ())) : Mirrors (whenH c x) (.ok ()) := by
  unfold Flbwt.whenH
  by_cases h : c
  · rw [if_pos h]; exact hx
  · rw [if_neg h]; exact pure ()

theorem loopUpH {f : Nat → σ → H σ} {g : Nat → σ → M σ} (lo cnt : Nat) (s : σ) (hf : ∀ i s, Mirrors (f i s) (g i s)) :
    Mirrors (loopUpH lo cnt s f) (loopUp lo cnt s g) := by
  induction cnt generalizing lo s with
  | zero => exact pure _
  | succ c ih => exact bind (hf _ _) (fun s' _ => ih _ s')

theorem loopDownH {f : Nat → σ → H σ} {g : Nat → σ → M σ} (hi : Nat) (s : σ) (hf : ∀ i s, Mirrors (f i s) (g i s)) :
    Mirrors (loopDownH hi s f) (loopDown hi s g) := by
  induction hi generalizing s with
  | zero => exact pure _
  | succ c ih => exact bind (hf _ _) (fun s' _ => ih s')

theorem whileH {f : σ → H (σ ⊕ β)} {g : σ → M (σ ⊕ β)} (fuel : Nat) (s : σ) (hf : ∀ s, Mirrors (f s) (g s)) :
    Mirrors (whileH fuel s f) (whileM fuel s g) := by
  induction fuel generalizing s with
  | zero => exact lift _
  | succ c ih =>
    refine bind (hf _) (fun r _ => ?_)
    cases r with
    | inl s' => exact ih s'
    | inr b => exact pure _

end Mirrors


/-! ## Queues -/

theorem newQBlockH_mirrors (w : Nat) : Mirrors (newQBlockH w) (.ok ()) :=
  Mirrors.malloc
    (Mirrors.skip (Mirrors.newB _ _) (Mirrors.malloc (Mirrors.skip Mirrors.nonNull_true Mirrors.nonNull_true) (Mirrors.Lame.skip Mirrors.nonNull_true (fun h => ⟨Nat.le_refl _, Or.inr rfl⟩))))
    (Mirrors.Lame.skip (Mirrors.newB _ _) (fun h => by
      rw [H.bind_def]
      unfold mallocB
      by_cases hb : (wordsBlk QSIZ w).role.fam = .c
      · rw [if_pos hb]
        by_cases hav : h.av h.reqs (wordsBlk QSIZ w) = true
        · rw [if_pos hav]; exact ⟨Nat.le_refl _, Or.inr rfl⟩
        · rw [if_neg hav]; exact ⟨Nat.le_succ _, Or.inr rfl⟩
      · rw [if_neg hb]; exact ⟨Nat.le_refl _, trivial⟩))

theorem freeQBlockH_mirrors (w : Nat) : Mirrors (freeQBlockH w) (.ok ()) := Mirrors.skip (Mirrors.freeB _ _) (Mirrors.skip (Mirrors.freeB _ _) (Mirrors.freeB _ _))

theorem enqueueH_mirrors (sj : BitVec 64) (q : Queue) (x : BitVec 64) : Mirrors (q.enqueueH sj x) (q.enqueue sj x) :=
  Mirrors.skip (Mirrors.whenH (newQBlockH_mirrors _)) (Mirrors.lift _)
theorem enqueueLH_mirrors (sj : BitVec 64) (q : Queue) (x : BitVec 64) : Mirrors (q.enqueueLH sj x) (q.enqueueL sj x) :=
  Mirrors.skip (Mirrors.whenH (newQBlockH_mirrors _)) (Mirrors.lift _)

theorem bind_ok_self {α : Type _} (m : M α) : (m >>= fun a => .ok a) = m := by cases m <;> rfl

theorem dequeueH_mirrors (sj : BitVec 64) (q : Queue) : Mirrors (q.dequeueH sj) (q.dequeue sj) := by
  rw [← bind_ok_self (q.dequeue sj)]
  exact Mirrors.bind (Mirrors.lift _) (fun _ _ => Mirrors.skip (Mirrors.whenH (freeQBlockH_mirrors _)) (Mirrors.pure _))

theorem destroyH_mirrors (fuel : Nat) (q : Queue) : Mirrors (q.destroyH fuel) (q.destroy fuel) := by
  refine Mirrors.whileH _ _ (fun q => ?_)
  unfold Queue.destroyStepH
  cases q.sb with
  | none => exact Mirrors.pure _
  | some a => exact Mirrors.bind (Mirrors.lift _) (fun _ _ => Mirrors.skip (freeQBlockH_mirrors _) (Mirrors.pure _))

/-! ## The table -/

theorem newTableH_mirrors (k n : Nat) : Mirrors (newTableH k n) (HashTable.new k n) :=
  Mirrors.skip (Mirrors.newB _ _) (Mirrors.skip (Mirrors.onBadAlloc (Mirrors.skip (Mirrors.newB _ _) (Mirrors.newB _ _)) (Mirrors.freeB _ _)) (Mirrors.lift _))

theorem mErr {α β : Type _} (e : Err) (f : α → M β) : ((.error e : M α) >>= f) = .error e := rfl

theorem makeRoomH_mirrors (junk : Fresh) (ht : HashTable) (h q : Nat) (r : Option Nat) (space : Nat) :
    Mirrors (makeRoomH junk ht h q r space) (HashTable.makeRoom junk ht h q r space) := by
  refine Mirrors.early (fun rest h1 => Mirrors.early (fun lim h2 => Mirrors.skip (Mirrors.whenH (Mirrors.reallocB _ _)) (Mirrors.lift _)) (fun e h2 => ?_)) (fun e h1 => ?_)
  · unfold HashTable.makeRoom
    rw [h1, HashTable.ok_bind, h2, mErr]
  · unfold HashTable.makeRoom
    rw [h1, mErr]

theorem insertStringH_mirrors (junk : Fresh) (ht : HashTable) (T : Mem Nat) (m p : Nat) :
    Mirrors (insertStringH junk ht T m p) (HashTable.insertString junk ht T m p) := by
  refine Mirrors.bind (Mirrors.lift _) (fun _ _ => Mirrors.bind (Mirrors.lift _) (fun _ _ => Mirrors.bind (Mirrors.lift _) (fun e _ => ?_)))
  cases e with
  | dup coll => exact Mirrors.pure _
  | free q r coll =>
    exact Mirrors.bind (Mirrors.lift _) (fun _ _ => Mirrors.bind (makeRoomH_mirrors _ _ _ _ _ _) (fun _ _ => Mirrors.bind (Mirrors.lift _) (fun _ _ =>
      Mirrors.bind (Mirrors.lift _) (fun _ _ => Mirrors.bind (Mirrors.lift _) (fun _ _ => Mirrors.pure _)))))

theorem deleteTableH_mirrors (ht : HashTable) : Mirrors (deleteTableH ht) (.ok ()) :=
  Mirrors.skip (Mirrors.freeB _ _) (Mirrors.skip (Mirrors.freeB _ _) (Mirrors.skip (Mirrors.whenH (Mirrors.freeB _ _)) (Mirrors.freeB _ _)))

theorem deleteContainerH_mirrors (ct : Container) : Mirrors (deleteContainerH ct) (.ok ()) := by
  unfold deleteContainerH
  cases ct.hashtable with
  | none => exact Mirrors.freeB _ _
  | some ht => exact Mirrors.skip (deleteTableH_mirrors _) (Mirrors.freeB _ _)

/-! ## The stages -/

theorem exFoundH_mirrors (junk : Fresh) (T : Mem Nat) (i : Nat) (s : ExSt) : Mirrors (exFoundH junk T i s) (exFound junk T i s) :=
  Mirrors.bind (Mirrors.lift _) (fun _ _ => Mirrors.bind (Mirrors.lift _) (fun _ _ => Mirrors.bind (insertStringH_mirrors _ _ _ _ _) (fun _ _ => Mirrors.pure _)))
theorem exMaybeH_mirrors (junk : Fresh) (T : Mem Nat) (i : Nat) (s : ExSt) : Mirrors (exMaybeH junk T i s) (exMaybe junk T i s) :=
  Mirrors.ite (fun _ => exFoundH_mirrors _ _ _ _) (fun _ => Mirrors.pure _)
theorem exStepH_mirrors (junk : Fresh) (T : Mem Nat) (i : Nat) (s : ExSt) : Mirrors (exStepH junk T i s) (exStep junk T i s) :=
  Mirrors.bind (Mirrors.lift _) (fun _ _ => Mirrors.bind (Mirrors.lift _) (fun _ _ => Mirrors.bind (Mirrors.lift _) (fun _ _ => Mirrors.ite (fun _ => Mirrors.pure _) (fun _ =>
    Mirrors.ite (fun _ => Mirrors.bind (exMaybeH_mirrors _ _ _ _) (fun _ _ => Mirrors.bind (Mirrors.lift _) (fun _ _ => Mirrors.pure _)))
      (fun _ => Mirrors.ite (fun _ => Mirrors.bind (Mirrors.lift _) (fun _ _ => Mirrors.pure _)) (fun _ => Mirrors.pure _))))))
theorem extractRestH_mirrors (junk : Fresh) (T : Mem Nat) (n : Nat) : Mirrors (extractRestH junk T n) (extractLMS junk T n) :=
  Mirrors.ite (fun _ => Mirrors.pure _) (fun _ => Mirrors.bind (newTableH_mirrors _ _) (fun _ _ => Mirrors.bind (Mirrors.lift _) (fun _ _ => Mirrors.bind (Mirrors.lift _) (fun _ _ =>
    Mirrors.bind (Mirrors.lift _) (fun _ _ => Mirrors.bind (Mirrors.lift _) (fun _ _ => Mirrors.bind (Mirrors.lift _) (fun _ _ =>
      Mirrors.bind (Mirrors.loopDownH _ _ (exStepH_mirrors junk T)) (fun _ _ => Mirrors.pure _))))))))

theorem sortLMSH_mirrors (sorter : Sorter) (pj : Nat → Nat) (junk : Fresh) (T : Mem Nat) (ct : Container) :
    Mirrors (sortLMSH sorter pj junk T ct) (sortLMS sorter pj junk T ct) := by
  unfold sortLMSH sortLMS
  cases ct.hashtable with
  | none => exact Mirrors.malloc (Mirrors.lift _) (fun h => ⟨Nat.le_refl _, Or.inl rfl⟩)
  | some ht =>
    have he : ∀ e, HashTable.calculateLenlen (ct.headEnd + 1) = .error e →
        (sortNames sorter pj junk ct ht >>= fun r => sortHead T ct ht.bufsize r.1 r.2) = .error e := by
      intro e h
      unfold sortNames
      show ((HashTable.calculateLenlen (ct.headEnd + 1) >>= _) >>= _) = _
      rw [h]; rfl
    refine Mirrors.malloc (Mirrors.early (fun v h1 => Mirrors.skip (Mirrors.reallocB _ _) (Mirrors.skip Mirrors.nonNull_true (Mirrors.bind (Mirrors.lift _) (fun r _ => Mirrors.lift _)))) he)
      (Mirrors.Lame.early (fun v h1 => Mirrors.Lame.skip (Mirrors.reallocB _ _) Mirrors.Lame.null) he)

theorem createShortenedH_mirrors (tj : Nat → BitVec 64) (sj : BitVec 64) (T : Mem Nat) (n : Nat) (ct : Container)
    (hn : ct.hashtable ≠ none) : Mirrors (createShortenedH tj sj T n ct) (createShortened tj sj T n ct) := by
  refine Mirrors.early (fun v h1 => Mirrors.skip (Mirrors.newB _ _) (Mirrors.skip (x := mallocB _ >>= nonNull) ?_ (Mirrors.lift _))) (fun e h1 => ?_)
  · exact Mirrors.malloc Mirrors.nonNull_true (fun h => ⟨Nat.le_refl _, Or.inr rfl⟩)
  · unfold createShortened
    cases hh : ct.hashtable with
    | none => exact absurd hh hn
    | some ht =>
      show (positionOfMsb (ct.numUnique + 1) >>= _) = _
      rw [h1]; rfl

theorem deletePackedH_mirrors (p : PackedArray) : Mirrors (deletePackedH p) (.ok ()) := Mirrors.skip (Mirrors.freeB _ _) (Mirrors.freeB _ _)

theorem newAllH_mirrors (L : List Blk) : Mirrors (newAllH L) (.ok ()) := by
  induction L with
  | nil => exact Mirrors.pure _
  | cons b l ih => exact Mirrors.skip (Mirrors.newB _ _) ih
theorem freeAllH_mirrors (L : List Blk) : Mirrors (freeAllH L) (.ok ()) := by
  induction L with
  | nil => exact Mirrors.pure _
  | cons b l ih => exact Mirrors.skip (Mirrors.freeB _ _) ih

/-! ## The suffix sorters -/

section
variable {S : Type} [SaStore S] [SaBlocks S]

theorem placeCountersH_bind {β : Type _} {n k fs : Nat} {junk : Nat → BitVec 64} {s : St S} {f : Ptr × Ptr × St S → H β} {m : M β}
    (hf : Mirrors (f (placeCounters n k fs junk s)) m) : Mirrors (placeCountersH n k fs junk s >>= f) m := by
  have : Mirrors (placeCountersH n k fs junk s) (.ok (placeCounters n k fs junk s)) :=
    Mirrors.skip (Mirrors.whenH (newAllH_mirrors _)) (Mirrors.pure _)
  exact Mirrors.bind (g := fun _ => m) this (fun a e => by cases e; exact hf)

theorem freeCountersH_mirrors (k fs : Nat) (s : St S) : Mirrors (freeCountersH k fs s) (.ok (freeCounters k fs s)) :=
  Mirrors.skip (Mirrors.whenH (freeAllH_mirrors _)) (Mirrors.pure _)

theorem freeCountersH_bind {β : Type _} {k fs : Nat} {s : St S} {f : St S → H β} {m : M β}
    (hf : Mirrors (f (freeCounters k fs s)) m) : Mirrors (freeCountersH k fs s >>= f) m :=
  Mirrors.bind (g := fun _ => m) (freeCountersH_mirrors k fs s) (fun a e => by cases e; exact hf)

theorem stage1H_mirrors (junk : Nat → BitVec 64) (e : Env) (fs n k : Nat) (s : St S) :
    Mirrors (stage1H junk e fs n k s) (stage1 junk e fs n k s) := by
  refine placeCountersH_bind ?_
  exact Mirrors.bind (Mirrors.lift _) (fun _ _ => Mirrors.bind (Mirrors.lift _) (fun _ _ => Mirrors.bind (Mirrors.lift _) (fun _ _ => Mirrors.bind (Mirrors.lift _) (fun _ _ => Mirrors.bind (Mirrors.lift _) (fun _ _ =>
    freeCountersH_bind (Mirrors.bind (Mirrors.lift _) (fun _ _ => Mirrors.bind (Mirrors.lift _) (fun _ _ => Mirrors.bind (Mirrors.lift _) (fun _ _ => Mirrors.bind (Mirrors.lift _) (fun _ _ => Mirrors.pure _))))))))))

theorem stage3H_mirrors (junk : Nat → BitVec 64) (e : Env) (fs n k m : Nat) (s : St S) :
    Mirrors (stage3H junk e fs n k m s) (stage3 junk e fs n k m s) := by
  refine placeCountersH_bind ?_
  exact Mirrors.bind (Mirrors.lift _) (fun _ _ => Mirrors.bind (Mirrors.lift _) (fun _ _ => Mirrors.bind (Mirrors.lift _) (fun _ _ => Mirrors.bind (Mirrors.lift _) (fun _ _ => Mirrors.bind (Mirrors.lift _) (fun _ _ =>
    freeCountersH_mirrors _ _ _)))))

theorem saisH_mirrors (junk : Nat → Nat → BitVec 64) (fuel : Nat) : ∀ (e : Env) (fs n k : Nat) (s : St S),
    Mirrors (saisH junk fuel e fs n k s) (sais junk fuel e fs n k s) := by
  induction fuel with
  | zero => intro e fs n k s; exact Mirrors.lift _
  | succ c ih =>
    intro e fs n k s
    rw [saisH, sais]
    refine Mirrors.bind (stage1H_mirrors _ _ _ _ _ _) (fun r _ => ?_)
    obtain ⟨s, m, name⟩ := r
    dsimp only
    by_cases h : name < m
    · rw [if_pos h, if_pos h]
      exact Mirrors.bind (Mirrors.lift _) (fun _ _ => Mirrors.bind (ih _ _ _ _ _) (fun _ _ => Mirrors.bind (Mirrors.lift _) (fun _ _ => stage3H_mirrors _ _ _ _ _ _ _)))
    · rw [if_neg h, if_neg h]
      exact Mirrors.bind (Mirrors.pure _) (fun _ _ => stage3H_mirrors _ _ _ _ _ _ _)

end

/-! ## Inducing the transform -/

theorem enqH_mirrors (sj : BitVec 64) (s : IndSt) (t c : Nat) (x : Int) : Mirrors (s.enqH sj t c x) (s.enq sj t c x) :=
  Mirrors.bind (Mirrors.lift _) (fun _ _ => Mirrors.bind (enqueueH_mirrors _ _ _) (fun _ _ => Mirrors.lift _))
theorem enqLH_mirrors (sj : BitVec 64) (s : IndSt) (t c : Nat) (x : Int) : Mirrors (s.enqLH sj t c x) (s.enqL sj t c x) :=
  Mirrors.bind (Mirrors.lift _) (fun _ _ => Mirrors.bind (enqueueLH_mirrors _ _ _) (fun _ _ => Mirrors.lift _))
theorem deqH_mirrors (sj : BitVec 64) (s : IndSt) (t c : Nat) : Mirrors (s.deqH sj t c) (s.deq sj t c) :=
  Mirrors.bind (Mirrors.lift _) (fun _ _ => Mirrors.bind (dequeueH_mirrors _ _) (fun _ _ => Mirrors.bind (Mirrors.lift _) (fun _ _ => Mirrors.pure _)))

theorem newQueuesH_mirrors (k : Nat) : Mirrors (newQueuesH k) (.ok ()) := by
  have : ∀ lo k, loopUp lo k () (fun _ _ => (.ok () : M Unit)) = .ok () := by
    intro lo k
    induction k generalizing lo with
    | zero => rfl
    | succ c ih => exact ih _
  have h := Mirrors.loopUpH (f := fun _ _ => newB .obj queueBlk) (g := fun _ _ => .ok ()) 0 k () (fun _ _ => Mirrors.newB .obj queueBlk)
  rw [this] at h
  exact h

theorem deleteQueuesH_mirrors (t : Nat) (s : IndSt) : Mirrors (deleteQueuesH t s) (deleteQueues t s) :=
  Mirrors.bind (Mirrors.loopUpH _ _ _ (fun _ _ => Mirrors.bind (Mirrors.lift _) (fun _ _ => Mirrors.bind (destroyH_mirrors _ _) (fun _ _ => Mirrors.freeB _ _)))) (fun _ _ => Mirrors.pure _)

theorem seedH_mirrors {S : Type} [SaStore S] (e : IndEnv) (sa : S) (num : Nat) (s : IndSt) : Mirrors (seedH e sa num s) (seed e sa num s) :=
  Mirrors.loopDownH _ _ (fun _ _ => Mirrors.ite (fun _ => Mirrors.bind (Mirrors.lift _) (fun _ _ => enqLH_mirrors _ _ _ _ _)) (fun _ => Mirrors.lift _))
theorem induceLH_mirrors (e : IndEnv) (c1 : Nat) (q : Int) (s : IndSt) : Mirrors (induceLH e c1 q s) (induceL e c1 q s) :=
  Mirrors.bind (enqH_mirrors _ _ _ _ _) (fun _ _ => Mirrors.bind (Mirrors.lift _) (fun _ _ => Mirrors.lift _))
theorem firstRowH_mirrors (e : IndEnv) (s : IndSt) : Mirrors (firstRowH e s) (firstRow e s) :=
  Mirrors.bind (deqH_mirrors _ _ _ _) (fun _ _ => Mirrors.bind (Mirrors.lift _) (fun _ _ => Mirrors.bind (Mirrors.lift _) (fun _ _ => Mirrors.bind (induceLH_mirrors _ _ _ _)
    (fun _ _ => Mirrors.lift _))))
theorem visit1H_mirrors (e : IndEnv) (c t : Nat) (m q : Int) (s : IndSt) : Mirrors (visit1H e c t m q s) (visit1 e c t m q s) :=
  Mirrors.ite (fun _ => Mirrors.pure _) (fun _ => Mirrors.bind (Mirrors.lift _) (fun _ _ => Mirrors.ite (fun _ => Mirrors.bind (induceLH_mirrors _ _ _ _) (fun _ _ => Mirrors.lift _))
    (fun _ => enqLH_mirrors _ _ _ _ _)))
theorem step1H_mirrors (e : IndEnv) (c t : Nat) (x : IndSt × Int) : Mirrors (step1H e c t x) (step1 e c t x) :=
  Mirrors.bind (Mirrors.lift _) (fun _ _ => Mirrors.ite (fun _ => Mirrors.pure _) (fun _ => Mirrors.bind (deqH_mirrors _ _ _ _) (fun _ _ =>
    Mirrors.bind (visit1H_mirrors _ _ _ _ _ _) (fun _ _ => Mirrors.pure _))))
theorem drain1H_mirrors (e : IndEnv) (fuel c t : Nat) (s : IndSt) : Mirrors (drain1H e fuel c t s) (drain1 e fuel c t s) :=
  Mirrors.bind (Mirrors.lift _) (fun _ _ => Mirrors.whileH _ _ (step1H_mirrors e c t))
theorem pass1H_mirrors (e : IndEnv) (fuel : Nat) (s : IndSt) : Mirrors (pass1H e fuel s) (pass1 e fuel s) :=
  Mirrors.loopUpH _ _ _ (fun _ _ => Mirrors.bind (drain1H_mirrors _ _ _ _ _) (fun _ _ => drain1H_mirrors _ _ _ _ _))
theorem visit2H_mirrors (e : IndEnv) (c : Nat) (q : Int) (s : IndSt) : Mirrors (visit2H e c q s) (visit2 e c q s) :=
  Mirrors.bind (Mirrors.lift _) (fun _ _ => Mirrors.ite (fun _ => Mirrors.bind (enqH_mirrors _ _ _ _ _) (fun _ _ => Mirrors.ite (fun _ => Mirrors.lift _) (fun _ =>
    Mirrors.bind (Mirrors.lift _) (fun _ _ => Mirrors.ite (fun _ => Mirrors.lift _) (fun _ => Mirrors.lift _))))) (fun _ => Mirrors.pure _))
theorem step2H_mirrors (e : IndEnv) (c t : Nat) (s : IndSt) : Mirrors (step2H e c t s) (step2 e c t s) :=
  Mirrors.bind (Mirrors.lift _) (fun _ _ => Mirrors.ite (fun _ => Mirrors.pure _) (fun _ => Mirrors.bind (deqH_mirrors _ _ _ _) (fun _ _ =>
    Mirrors.bind (visit2H_mirrors _ _ _ _) (fun _ _ => Mirrors.pure _))))
theorem pass2H_mirrors (e : IndEnv) (fuel : Nat) (s : IndSt) : Mirrors (pass2H e fuel s) (pass2 e fuel s) :=
  Mirrors.loopDownH _ _ (fun _ _ => Mirrors.bind (Mirrors.whileH _ _ (step2H_mirrors _ _ _)) (fun _ _ => Mirrors.whileH _ _ (step2H_mirrors _ _ _)))

theorem induceBwtH_mirrors {S : Type} [SaStore S] [SaBlocks S] (qj : Nat → Nat → Nat → Nat → BitVec 64) (bj : Nat → Nat)
    (sj : BitVec 64) (fuel : Nat) (buf : Mem Nat) (sa : S) (ct : Container) :
    Mirrors (induceBwtH qj bj sj fuel buf sa ct) (induceBwt qj bj sj fuel buf sa ct) := by
  refine Mirrors.skip (newQueuesH_mirrors _) (Mirrors.bind (seedH_mirrors _ _ _ _) (fun _ _ => Mirrors.skip (freeAllH_mirrors _) (Mirrors.skip (Mirrors.newB _ _)
    (Mirrors.bind (Mirrors.lift _) (fun _ _ => Mirrors.bind (Mirrors.lift _) (fun _ _ => Mirrors.bind (firstRowH_mirrors _ _) (fun _ _ => Mirrors.bind (pass1H_mirrors _ _ _) (fun _ _ =>
    Mirrors.bind (deleteQueuesH_mirrors _ _) (fun _ _ => Mirrors.bind (deleteQueuesH_mirrors _ _) (fun _ _ => Mirrors.skip (newQueuesH_mirrors _)
    (Mirrors.bind (Mirrors.lift _) (fun _ _ => Mirrors.bind (pass2H_mirrors _ _ _) (fun _ _ => Mirrors.bind (deleteQueuesH_mirrors _ _) (fun _ _ =>
    Mirrors.bind (deleteQueuesH_mirrors _ _) (fun s _ => Mirrors.skip (x := mallocB resultBlk >>= nonNull) ?_ ?_)))))))))))))))
  · exact Mirrors.malloc Mirrors.nonNull_true (fun h => ⟨Nat.le_refl _, Or.inr rfl⟩)
  · cases s.last with
    | none => exact Mirrors.lift _
    | some l => exact Mirrors.pure _

theorem branchH_mirrors (S : Type) [SaStore S] [SaBlocks S] (w : World) (s : Mem Nat) (T1 : PackedArray) (ht : HashTable)
    (ct : Container) : Mirrors (branchH S w s T1 ht ct) (branch S w s T1 ht ct) :=
  Mirrors.skip (newAllH_mirrors _) (Mirrors.bind (saisH_mirrors _ _ _ _ _ _ _) (fun _ _ => Mirrors.bind (Mirrors.lift _) (fun _ _ => Mirrors.bind (Mirrors.lift _) (fun _ _ =>
    Mirrors.skip (Mirrors.freeB _ _) (Mirrors.skip (deletePackedH_mirrors _) (induceBwtH_mirrors _ _ _ _ _ _ _))))))

theorem someH_mirrors {α : Type _} {x : H α} {m : M α} (hx : Mirrors x m) : Mirrors (someH x) (some <$> m) := by
  have : (some <$> m) = (m >>= fun a => .ok (some a)) := by cases m <;> rfl
  rw [this]
  exact Mirrors.bind hx (fun _ _ => Mirrors.pure _)

theorem finishH_mirrors (w : World) (s : Mem Nat) (T1 : PackedArray) (ct : Container) : Mirrors (finishH w s T1 ct) (finish w s T1 ct) := by
  have h (S : Type) [SaStore S] [SaBlocks S] (ht : HashTable) : Mirrors (someH (branchH S w s T1 ht ct)) (some <$> branch S w s T1 ht ct) :=
    someH_mirrors (branchH_mirrors S w s T1 ht ct)
  unfold finishH finish
  cases ct.hashtable with
  | none => exact Mirrors.lift _
  | some ht =>
    exact Mirrors.bind (Mirrors.lift _) (fun bits _ => Mirrors.ite (fun _ => h _ _) (fun _ => Mirrors.ite (fun _ => h _ _) (fun _ => Mirrors.ite (fun _ => h _ _)
      (fun _ => Mirrors.ite (fun _ => h _ _) (fun _ => Mirrors.ite (fun _ => h _ _) (fun _ => Mirrors.pure _))))))

theorem releaseH_mirrors (freeT : Bool) (T : Mem Nat) : Mirrors (releaseH freeT T) (.ok (release freeT T)) :=
  Mirrors.skip (Mirrors.whenH (Mirrors.freeB _ _)) (Mirrors.pure _)

theorem sortLMS_table {sorter : Sorter} {pj : Nat → Nat} {junk : Fresh} {T : Mem Nat} {ct : Container} {r : Mem Nat × Container}
    (e : sortLMS sorter pj junk T ct = .ok r) : r.2.hashtable ≠ none := by
  unfold sortLMS at e
  cases hh : ct.hashtable with
  | none => rw [hh] at e; cases e
  | some ht =>
    rw [hh] at e
    obtain ⟨x, _, e⟩ := bind_ok_inv e
    unfold sortHead at e
    obtain ⟨_, _, e⟩ := bind_ok_inv e
    obtain ⟨_, _, e⟩ := bind_ok_inv e
    obtain ⟨_, _, e⟩ := bind_ok_inv e
    obtain ⟨_, _, e⟩ := bind_ok_inv e
    obtain ⟨_, _, e⟩ := bind_ok_inv e
    obtain ⟨_, _, e⟩ := bind_ok_inv e
    obtain ⟨_, _, e⟩ := bind_ok_inv e
    obtain ⟨_, _, e⟩ := bind_ok_inv e
    cases e
    simp

theorem bwtIsH_mirrors (w : World) (T : Mem Nat) (n : Nat) (freeT : Bool) : Mirrors (bwtIsH w T n freeT) (bwtIs w T n freeT) := by
  refine Mirrors.skip (Mirrors.newB _ _) (Mirrors.bind (extractRestH_mirrors _ _ _) (fun _ _ => Mirrors.bind (sortLMSH_mirrors _ _ _ _ _) (fun r hr =>
    Mirrors.bind (createShortenedH_mirrors _ _ _ _ _ (sortLMS_table hr)) (fun T1 _ => ?_))))
  exact Mirrors.bind (g := fun T' => finish w r.1 T1 r.2 >>= fun b => .ok (b, T')) (releaseH_mirrors freeT T) (fun T' _ =>
    Mirrors.bind (finishH_mirrors _ _ _ _) (fun _ _ => Mirrors.skip (deleteContainerH_mirrors _) (Mirrors.pure _)))

theorem bwtStringH_mirrors (w : World) (T : Option (Mem Nat)) (n : Nat) (freeT : Bool) :
    Mirrors (bwtStringH w T n freeT) (bwtString w T n freeT) := by
  cases T with
  | none => exact Mirrors.lift _
  | some T => exact Mirrors.ite (fun _ => Mirrors.lift _) (fun _ => bwtIsH_mirrors _ _ _ _)

end Flbwt
