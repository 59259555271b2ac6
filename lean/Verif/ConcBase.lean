import Verif.HeapBase

/-!
# Threads: computations whose requests, releases and accesses to the text can be interleaved

`Th α` is the program of a thread as a tree of its actions on memory that other threads can see or influence: requests
(whose answer depends on the other threads), releases, accesses to the text (which the caller may have given to several
threads; what the program reads is an answer too). Everything between two actions concerns memory of the thread alone, so it does not matter at which moment it
happens. `Th.run` executes a thread alone, on a text and on the heap of `HeapBase.lean`.

Not a model of one particular source file.
-/

namespace Flbwt

/-- The program of a thread: finished; request of a block, the answer is whether it was granted; release of a block;
access to the text, the answer is what is read; release of the text. Infrastructure: models no code. -/
inductive Th (α : Type) : Type where
  | ret (r : Except HErr α)
  | req (b : Blk) (k : Bool → Th α)
  | rel (b : Blk) (k : Th α)
  | use (k : Mem Nat → Th α)
  | relT (k : Th α)

namespace Th
variable {α β : Type}

/-- sequencing; an error ends the thread. Infrastructure: models no code. -/
def bind : Th α → (α → Th β) → Th β
  | .ret (.ok a), f => f a
  | .ret (.error e), _ => .ret (.error e)
  | .req b k, f => .req b (fun x => (k x).bind f)
  | .rel b k, f => .rel b (k.bind f)
  | .use k, f => .use (fun T => (k T).bind f)
  | .relT k, f => .relT (k.bind f)

/-- Infrastructure: models no code. -/
instance : Monad Th where
  pure a := .ret (.ok a)
  bind := Th.bind

/-- A computation that neither requests nor releases memory. Infrastructure: models no code. -/
def lift (m : M α) : Th α :=
  match m with
  | .ok a => .ret (.ok a)
  | .error e => .ret (.error (.prog e))

/-- The thread alone, on the text `T` and a heap that contains it. Infrastructure: models no code. -/
def run (T : Mem Nat) : Th α → H α
  | .ret r => fun h => (r, h)
  | .req b k => fun h => if h.av h.reqs b then (k true).run T (h.got b) else (k false).run T h.refused
  | .rel b k => fun h => if 1 ≤ h.live b then k.run T (h.sub b) else (.error .badFree, h)
  | .use k => (k T).run T
  | .relT k => fun h => if 1 ≤ h.live ⟨.text, T.size⟩ then k.run T (h.sub ⟨.text, T.size⟩) else (.error .badFree, h)

end Th

/-- `new` (`f = .obj`), `new[]` (`f = .arr`), as `newB`. The operators `new`, `new[]` of src/*.cpp. -/
def newC (f : Fam) (b : Blk) : Th Unit :=
  if b.role.fam = f then .req b fun g => if g then .ret (.ok ()) else .ret (.error .badAlloc)
  else .ret (.error .badFree)

/-- `malloc`, as `mallocB`. The calls of `malloc` of src/*.cpp. -/
def mallocC (b : Blk) : Th Bool :=
  if b.role.fam = .c then .req b fun g => .ret (.ok g) else .ret (.error .badFree)

/-- first access through a pointer returned by `malloc`, as `nonNull`. Infrastructure: models no code. -/
def nonNullC (p : Bool) : Th Unit :=
  if p then .ret (.ok ()) else .ret (.error (.prog (.ub .nullDeref)))

/-- `free`, `delete`, `delete[]`, as `freeB`. `free`, `delete`, `delete[]` of src/*.cpp. -/
def freeC (f : Fam) (b : Blk) : Th Unit :=
  if b.role.fam = f then .rel b (.ret (.ok ())) else .ret (.error .badFree)

/-- `realloc` of the table buffer and the first use of the result, as `reallocB`; the request and the release of the old
block are two actions here (other threads may act between them). src/hashtable.cpp:90-93, src/flbwt.cpp:394-396. -/
def reallocC (old new : Nat) : Th Unit :=
  .req ⟨.buf, new⟩ fun g =>
    if g then (if old = 0 then .ret (.ok ()) else .rel ⟨.buf, old⟩ (.ret (.ok ())))
    else .ret (.error (.prog (.ub .nullDeref)))

/-- a piece of code that reads the text. Infrastructure: models no code. -/
def readT {α : Type} (f : Mem Nat → M α) : Th α := .use fun T => Th.lift (f T)

/-- `free(T)`. src/flbwt.cpp:120-313. -/
def freeTextC : Th Unit := .relT (.ret (.ok ()))

/-- `x`; when it throws `std::bad_alloc`, `c` is done before the exception is passed on, as `onBadAlloc`.
For `new PackedArray`, `new HashTable`, ... in src/*.cpp. -/
def onBadAllocC {α : Type} : Th α → Th Unit → Th α
  | .ret (.error .badAlloc), c => c.bind fun _ => .ret (.error .badAlloc)
  | .ret r, _ => .ret r
  | .req b k, c => .req b (fun x => onBadAllocC (k x) c)
  | .rel b k, c => .rel b (onBadAllocC k c)
  | .use k, c => .use (fun T => onBadAllocC (k T) c)
  | .relT k, c => .relT (onBadAllocC k c)

section
variable {σ β : Type}

/-- `for (i = lo; i < lo + cnt; ++i) body`. Infrastructure: models no code. -/
def loopUpC (lo : Nat) : Nat → σ → (Nat → σ → Th σ) → Th σ
  | 0, s, _ => pure s
  | cnt + 1, s, f => f lo s >>= fun s' => loopUpC (lo + 1) cnt s' f

/-- `for (i = hi - 1; i >= 0; --i) body`. Infrastructure: models no code. -/
def loopDownC : Nat → σ → (Nat → σ → Th σ) → Th σ
  | 0, s, _ => pure s
  | hi + 1, s, f => f hi s >>= fun s' => loopDownC hi s' f

/-- `while` loop, as `whileM`. Infrastructure: models no code. -/
def whileC : Nat → σ → (σ → Th (σ ⊕ β)) → Th β
  | 0, _, _ => Th.lift (.error (.ub .diverge))
  | fuel + 1, s, f => f s >>= fun r =>
      match r with
      | .inl s' => whileC fuel s' f
      | .inr b => pure b

/-- an action done only if `c`. Infrastructure: models no code. -/
def whenC (c : Prop) [Decidable c] (x : Th Unit) : Th Unit := if c then x else pure ()

end

/-! ## Alone, a thread does what the model with the heap does -/

section
variable {α β σ : Type} (T : Mem Nat)

theorem run_pure (a : α) : (pure a : Th α).run T = (pure a : H α) := rfl

theorem run_bind (x : Th α) (f : α → Th β) : (x >>= f).run T = (x.run T >>= fun a => (f a).run T) := by
  show (x.bind f).run T = _
  induction x with
  | ret r =>
    cases r with
    | ok a => rfl
    | error e => rfl
  | req b k ih =>
    funext h
    rw [H.bind_def]
    simp only [Th.bind, Th.run]
    split
    · rw [ih true, H.bind_def]
    · rw [ih false, H.bind_def]
  | rel b k ih =>
    funext h
    rw [H.bind_def]
    simp only [Th.bind, Th.run]
    split
    · rw [ih, H.bind_def]
    · rfl
  | use k ih => simp only [Th.bind, Th.run]; exact ih T
  | relT k ih =>
    funext h
    rw [H.bind_def]
    simp only [Th.bind, Th.run]
    split
    · rw [ih, H.bind_def]
    · rfl

theorem run_lift (m : M α) : (Th.lift m).run T = H.lift m := by
  cases m <;> rfl

theorem run_newC (f : Fam) (b : Blk) : (newC f b).run T = newB f b := by
  funext h
  unfold newC newB
  by_cases c : b.role.fam = f
  · rw [if_pos c, if_pos c]
    simp only [Th.run]
    split <;> rfl
  · rw [if_neg c, if_neg c]; rfl

theorem run_mallocC (b : Blk) : (mallocC b).run T = mallocB b := by
  funext h
  unfold mallocC mallocB
  by_cases c : b.role.fam = .c
  · rw [if_pos c, if_pos c]; rfl
  · rw [if_neg c, if_neg c]; rfl

theorem run_nonNullC (p : Bool) : (nonNullC p).run T = nonNull p := by cases p <;> rfl

theorem run_freeC (f : Fam) (b : Blk) : (freeC f b).run T = freeB f b := by
  funext h
  unfold freeC freeB
  by_cases c : b.role.fam = f
  · rw [if_pos c, if_pos c]; rfl
  · rw [if_neg c, if_neg c]; rfl

theorem run_freeTextC : freeTextC.run T = freeB .c ⟨.text, T.size⟩ := by
  funext h
  unfold freeB
  rw [if_pos (by rfl)]
  rfl

theorem run_readT (f : Mem Nat → M α) : (readT f).run T = H.lift (f T) := run_lift T (f T)

theorem run_reallocC (old new : Nat) : (reallocC old new).run T = reallocB old new := by
  funext h
  unfold reallocC reallocB
  simp only [Th.run]
  by_cases c : h.av h.reqs ⟨.buf, new⟩ = true
  · rw [if_pos c, if_pos c]
    by_cases c2 : old = 0
    · rw [if_pos c2]; simp [c2]; rfl
    · rw [if_neg c2]
      simp only [if_neg c2, if_true, freeB]
      rw [if_pos (by rfl)]
      rfl
  · rw [if_neg c, if_neg c]; rfl

theorem run_onBadAllocC (x : Th α) (c : Th Unit) : (onBadAllocC x c).run T = onBadAlloc (x.run T) (c.run T) := by
  induction x with
  | ret r =>
    cases r with
    | ok a => rfl
    | error e =>
      cases e with
      | badAlloc =>
        funext h
        have := congrFun (run_bind T c (fun _ => (.ret (.error .badAlloc) : Th α))) h
        simp only [onBadAllocC, onBadAlloc]
        refine this.trans ?_
        rw [H.bind_def]
        simp only [Th.run]
        rcases c.run T h with ⟨r, h'⟩
        cases r <;> rfl
      | prog e => rfl
      | badFree => rfl
  | req b k ih =>
    funext h
    simp only [onBadAllocC, Th.run]
    unfold onBadAlloc
    simp only
    split
    · rw [ih true]; rfl
    · rw [ih false]; rfl
  | rel b k ih =>
    funext h
    simp only [onBadAllocC, Th.run]
    unfold onBadAlloc
    simp only
    split
    · rw [ih]; rfl
    · rfl
  | use k ih => exact ih T
  | relT k ih =>
    funext h
    simp only [onBadAllocC, Th.run]
    unfold onBadAlloc
    simp only
    split
    · rw [ih]; rfl
    · rfl

theorem run_loopUpC (f : Nat → σ → Th σ) (cnt : Nat) : ∀ (lo : Nat) (s : σ),
    (loopUpC lo cnt s f).run T = loopUpH lo cnt s (fun i s => (f i s).run T) := by
  induction cnt with
  | zero => intro lo s; rfl
  | succ cnt ih =>
    intro lo s
    rw [loopUpC, loopUpH, run_bind]
    simp only [ih]

theorem run_loopDownC (f : Nat → σ → Th σ) (hi : Nat) : ∀ (s : σ),
    (loopDownC hi s f).run T = loopDownH hi s (fun i s => (f i s).run T) := by
  induction hi with
  | zero => intro s; rfl
  | succ hi ih =>
    intro s
    rw [loopDownC, loopDownH, run_bind]
    simp only [ih]

theorem run_whileC (f : σ → Th (σ ⊕ β)) (fuel : Nat) : ∀ (s : σ),
    (whileC fuel s f).run T = whileH fuel s (fun s => (f s).run T) := by
  induction fuel with
  | zero => intro s; rfl
  | succ fuel ih =>
    intro s
    rw [whileC, whileH, run_bind]
    congr 1
    funext r
    cases r with
    | inl s' => exact ih s'
    | inr b => rfl

end

end Flbwt
