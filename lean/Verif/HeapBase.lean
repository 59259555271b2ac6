import Verif.Base

/-!
# The heap: requests, releases, failures

The modules `Heap*.lean` model the same program as `Front.lean`, `Sais.lean`, `Induce.lean` and `Bwt.lean` once more, with
every `new`, `malloc`, `realloc`, `delete` and `free` explicit. A block is described by what it is used for (`Role`) and
its size; the heap counts the live blocks of every description. A schedule `av` decides which requests are satisfied.

Not a model of one particular source file.
-/

namespace Flbwt

/-- What a block is used for. The requests of src/*.cpp (each use names the line). -/
inductive Role where
  | text | container | table | rest | head | buf | ptrs | packed | words | sa | counters | queue | qblock | bwt | result | rank
  deriving DecidableEq, Repr

/-- The families of requests: `malloc`/`realloc`, `new`, `new[]`. A block must be released with the operator that belongs
to its request: `free`, `delete`, `delete[]`. The operators used in src/*.cpp. -/
inductive Fam where
  | c | obj | arr
  deriving DecidableEq, Repr

/-- How the blocks are requested and released; every operation below checks it. The operators used in src/*.cpp. -/
def Role.fam : Role → Fam
  | .text | .buf | .ptrs | .words | .qblock | .result => .c
  | .container | .table | .packed | .queue => .obj
  | .rest | .head | .sa | .counters | .bwt | .rank => .arr

/-- A block: purpose and size in bytes. Infrastructure: models no code. -/
structure Blk where
  role : Role
  bytes : Nat
  deriving DecidableEq, Repr

/-- `av k b`: whether request number `k`, for the block `b`, is satisfied. `reqs`: number of requests so far, `failed`:
number of requests that were not satisfied. `live b`: number of live blocks `b`. `total`: bytes in live blocks requested
or released by the program since the start (relative to an arbitrary initial value), `peak`: its largest value.
Infrastructure: models no code. -/
structure Heap where
  av : Nat → Blk → Bool
  reqs : Nat
  failed : Nat
  live : Blk → Nat
  total : Nat
  peak : Nat

/-- How a computation can end abnormally: as in the model without heap, by `std::bad_alloc`, or by releasing a block that
is not live, or using an operator of the wrong family (undefined behaviour). Infrastructure: models no code. -/
inductive HErr where
  | prog (e : Err)
  | badAlloc
  | badFree
  deriving DecidableEq, Repr

/-- A computation with a heap; the heap survives an exception. Infrastructure: models no code. -/
def H (α : Type _) := Heap → Except HErr α × Heap

namespace H
variable {α β : Type _}

/-- Infrastructure: models no code. -/
def pure (a : α) : H α := fun h => (.ok a, h)

/-- Infrastructure: models no code. -/
def bind (x : H α) (f : α → H β) : H β := fun h =>
  match x h with
  | (.ok a, h') => f a h'
  | (.error e, h') => (.error e, h')

/-- Infrastructure: models no code. -/
instance : Monad H where
  pure := H.pure
  bind := H.bind

/-- A computation that neither requests nor releases memory. Infrastructure: models no code. -/
def lift (m : M α) : H α := fun h =>
  match m with
  | .ok a => (.ok a, h)
  | .error e => (.error (.prog e), h)

end H

/-- The heap with one more block. Infrastructure: models no code. -/
def Heap.add (h : Heap) (b : Blk) : Heap :=
  { h with live := fun x => if x = b then h.live x + 1 else h.live x
           total := h.total + b.bytes
           peak := max h.peak (h.total + b.bytes) }

/-- The heap with one block less. Infrastructure: models no code. -/
def Heap.sub (h : Heap) (b : Blk) : Heap :=
  { h with live := fun x => if x = b then h.live x - 1 else h.live x
           total := h.total - b.bytes }

/-- A request that was satisfied. Infrastructure: models no code. -/
def Heap.got (h : Heap) (b : Blk) : Heap := { h with reqs := h.reqs + 1 }.add b

/-- A request that was not satisfied. Infrastructure: models no code. -/
def Heap.refused (h : Heap) : Heap := { h with reqs := h.reqs + 1, failed := h.failed + 1 }

/-- `new` (`f = .obj`), `new[]` (`f = .arr`): throws `std::bad_alloc` when there is no memory.
The operators `new`, `new[]` of src/*.cpp. -/
def newB (f : Fam) (b : Blk) : H Unit := fun h =>
  if b.role.fam = f then
    if h.av h.reqs b then (.ok (), h.got b) else (.error .badAlloc, h.refused)
  else (.error .badFree, h)

/-- `malloc`: the result is `false` for the null pointer. The calls of `malloc` of src/*.cpp. -/
def mallocB (b : Blk) : H Bool := fun h =>
  if b.role.fam = .c then
    if h.av h.reqs b then (.ok true, h.got b) else (.ok false, h.refused)
  else (.error .badFree, h)

/-- First access through a pointer returned by `malloc`. Infrastructure: models no code. -/
def nonNull (p : Bool) : H Unit := fun h =>
  if p then (.ok (), h) else (.error (.prog (.ub .nullDeref)), h)

/-- `free` (`f = .c`), `delete` (`.obj`), `delete[]` (`.arr`) of a block that must be live and must have been requested
with the matching operator. `free`, `delete`, `delete[]` of src/*.cpp. -/
def freeB (f : Fam) (b : Blk) : H Unit := fun h =>
  if b.role.fam = f then
    if 1 ≤ h.live b then (.ok (), h.sub b) else (.error .badFree, h)
  else (.error .badFree, h)

/-- `realloc(buf, new)` of the table buffer followed by the first use of the result: a null pointer argument requests a
new block, else the contents move to a new block and the old one is released. When there is no memory the old block stays
and the result is the null pointer, which the code uses without a test. src/hashtable.cpp:90-93, src/flbwt.cpp:394-396. -/
def reallocB (old new : Nat) : H Unit := fun h =>
  if h.av h.reqs ⟨.buf, new⟩ then
    if old = 0 then (.ok (), h.got ⟨.buf, new⟩)
    else freeB .c ⟨.buf, old⟩ (h.got ⟨.buf, new⟩)
  else (.error (.prog (.ub .nullDeref)), h.refused)

/-- `x`; when it throws `std::bad_alloc`, `c` is done before the exception is passed on: what the compiler generates for
`new C(...)` when the constructor throws. For `new PackedArray`, `new HashTable`, ... in src/*.cpp. -/
def onBadAlloc {α : Type _} (x : H α) (c : H Unit) : H α := fun h =>
  match x h with
  | (.error .badAlloc, h') =>
    match c h' with
    | (.ok _, h'') => (.error .badAlloc, h'')
    | (.error e, h'') => (.error e, h'')
  | r => r

/-! ## Loops -/

section
variable {σ β : Type _}

/-- `for (i = lo; i < lo + cnt; ++i) body`. Infrastructure: models no code. -/
def loopUpH (lo : Nat) : Nat → σ → (Nat → σ → H σ) → H σ
  | 0, s, _ => Pure.pure s
  | cnt + 1, s, f => f lo s >>= fun s' => loopUpH (lo + 1) cnt s' f

/-- `for (i = hi - 1; i >= 0; --i) body`. Infrastructure: models no code. -/
def loopDownH : Nat → σ → (Nat → σ → H σ) → H σ
  | 0, s, _ => Pure.pure s
  | hi + 1, s, f => f hi s >>= fun s' => loopDownH hi s' f

/-- `while` loop, as `whileM`. Infrastructure: models no code. -/
def whileH : Nat → σ → (σ → H (σ ⊕ β)) → H β
  | 0, _, _ => H.lift (.error (.ub .diverge))
  | fuel + 1, s, f => f s >>= fun r =>
      match r with
      | .inl s' => whileH fuel s' f
      | .inr b => Pure.pure b

end

/-! ## Simulation of the model without heap -/

/-- What a run may do to the parts of the heap that do not belong to the stage: the schedule and the blocks `text` and
`container` stay, and a request can only have failed if the schedule refuses a block of one of the roles `R`.
Used in proofs only. -/
structure Step (R : Role → Prop) (h h' : Heap) : Prop where
  av : h'.av = h.av
  mono : h.failed ≤ h'.failed
  keep : ∀ b, b.role = .text ∨ b.role = .container → h'.live b = h.live b
  why : h.failed < h'.failed → ∃ k b, R b.role ∧ h.av k b = false

/-- The run `x h` simulates `m`: it ends with the result of `m` in a heap satisfying `Q`, or with the error of `m`, or a
request failed and it ends by `std::bad_alloc` or a null dereference. Used in proofs only. -/
def Post {α : Type _} (R : Role → Prop) (h : Heap) (m : M α) (Q : α → Heap → Prop) : Except HErr α × Heap → Prop
  | (.ok a, h') => m = .ok a ∧ Step R h h' ∧ h'.failed = h.failed ∧ Q a h'
  | (.error (.prog e), h') => Step R h h' ∧ (m = .error e ∧ h'.failed = h.failed ∨ e = .ub .nullDeref ∧ h.failed < h'.failed)
  | (.error .badAlloc, h') => Step R h h' ∧ h.failed < h'.failed
  | (.error .badFree, _) => False

section
variable {α β σ : Type _} {R : Role → Prop} {h h' : Heap}

theorem Step.refl (R : Role → Prop) (h : Heap) : Step R h h := ⟨rfl, Nat.le_refl _, fun _ _ => rfl, fun h => absurd h (Nat.lt_irrefl _)⟩

theorem Step.trans {h1 h2 h3 : Heap} (a : Step R h1 h2) (b : Step R h2 h3) : Step R h1 h3 := by
  refine ⟨b.av.trans a.av, Nat.le_trans a.mono b.mono, fun x hx => (b.keep x hx).trans (a.keep x hx), fun hlt => ?_⟩
  by_cases h : h1.failed < h2.failed
  · exact a.why h
  · have := b.why (by have := a.mono; omega)
    rwa [a.av] at this

theorem Step.mono_role {R' : Role → Prop} {h1 h2 : Heap} (a : Step R h1 h2) (hR : ∀ r, R r → R' r) : Step R' h1 h2 :=
  ⟨a.av, a.mono, a.keep, fun hlt => by obtain ⟨k, b, h1, h2⟩ := a.why hlt; exact ⟨k, b, hR _ h1, h2⟩⟩

theorem H.bind_def (x : H α) (f : α → H β) (h : Heap) : (x >>= f) h =
    match x h with
    | (.ok a, h') => f a h'
    | (.error e, h') => (.error e, h') := rfl

theorem H.pure_def (a : α) (h : Heap) : (Pure.pure a : H α) h = (.ok a, h) := rfl

theorem Post.bind {x : H α} {f : α → H β} {m : M α} {g : α → M β} {Q : α → Heap → Prop} {P : β → Heap → Prop}
    (hx : Post R h m Q (x h))
    (hf : ∀ a h', m = .ok a → Q a h' → Step R h h' → h'.failed = h.failed → Post R h' (g a) P (f a h')) :
    Post R h (m >>= g) P ((x >>= f) h) := by
  rw [H.bind_def]
  rcases hx' : x h with ⟨r, h1⟩
  rw [hx'] at hx
  cases r with
  | ok a =>
    obtain ⟨rfl, st, hfl, hq⟩ := hx
    have := hf a h1 rfl hq st hfl
    show Post R h (g a) P (f a h1)
    rcases hy : f a h1 with ⟨r2, h2⟩
    rw [hy] at this
    cases r2 with
    | ok b =>
      obtain ⟨e1, s1, f1, q1⟩ := this
      exact ⟨e1, st.trans s1, f1.trans hfl, q1⟩
    | error e =>
      cases e with
      | prog e =>
        obtain ⟨s1, o⟩ := this
        refine ⟨st.trans s1, ?_⟩
        rcases o with ⟨o, o2⟩ | ⟨o, o2⟩
        · exact Or.inl ⟨o, o2.trans hfl⟩
        · exact Or.inr ⟨o, by omega⟩
      | badAlloc =>
        obtain ⟨s1, o⟩ := this
        exact ⟨st.trans s1, by omega⟩
      | badFree => exact this
  | error e =>
    cases e with
    | prog e =>
      obtain ⟨s1, o⟩ := hx
      refine ⟨s1, ?_⟩
      rcases o with ⟨o, o2⟩ | o
      · subst o; exact Or.inl ⟨rfl, o2⟩
      · exact Or.inr o
    | badAlloc => exact hx
    | badFree => exact hx

theorem Post.pure {a : α} {Q : α → Heap → Prop} (hq : Q a h) : Post R h (.ok a : M α) Q ((Pure.pure a : H α) h) :=
  ⟨rfl, Step.refl _ _, rfl, hq⟩

theorem Post.mono {m : M α} {Q P : α → Heap → Prop} {r : Except HErr α × Heap} (hx : Post R h m Q r)
    (hq : ∀ a h', m = .ok a → Step R h h' → h'.failed = h.failed → Q a h' → P a h') : Post R h m P r := by
  rcases r with ⟨r, h1⟩
  cases r with
  | ok a =>
    obtain ⟨e1, s1, f1, q1⟩ := hx
    exact ⟨e1, s1, f1, hq _ _ e1 s1 f1 q1⟩
  | error e => cases e <;> exact hx

theorem Post.lift {m : M α} {Q : α → Heap → Prop} (hq : ∀ a, m = .ok a → Q a h) : Post R h m Q (H.lift m h) := by
  cases m with
  | ok a => exact ⟨rfl, Step.refl _ _, rfl, hq a rfl⟩
  | error e => exact ⟨Step.refl _ _, Or.inl ⟨rfl, rfl⟩⟩

theorem Post.liftBind {m : M α} {f : α → H β} {g : α → M β} {P : β → Heap → Prop}
    (hf : ∀ a, m = .ok a → Post R h (g a) P (f a h)) : Post R h (m >>= g) P ((H.lift m >>= f) h) := by
  cases m with
  | ok a => exact hf a rfl
  | error e => exact ⟨Step.refl _ _, Or.inl ⟨rfl, rfl⟩⟩

theorem Post.liftThen {m : M α} {f : α → H α} {P : α → Heap → Prop}
    (hf : ∀ a, m = .ok a → Post R h (.ok a) P (f a h)) : Post R h m P ((H.lift m >>= f) h) := by
  cases m with
  | ok a => exact hf a rfl
  | error e => exact ⟨Step.refl _ _, Or.inl ⟨rfl, rfl⟩⟩

theorem Post.role {R' : Role → Prop} {m : M α} {Q : α → Heap → Prop} {r : Except HErr α × Heap} (hx : Post R h m Q r)
    (hR : ∀ r, R r → R' r) : Post R' h m Q r := by
  rcases r with ⟨r, h1⟩
  cases r with
  | ok a => exact ⟨hx.1, hx.2.1.mono_role hR, hx.2.2⟩
  | error e =>
    cases e with
    | badFree => exact hx
    | badAlloc => exact ⟨hx.1.mono_role hR, hx.2⟩
    | prog e => exact ⟨hx.1.mono_role hR, hx.2⟩

/-- An operation on the heap alone, in front of the rest. -/
theorem Post.seq {x : H Unit} {f : Unit → H β} {m : M β} {Q : Unit → Heap → Prop} {P : β → Heap → Prop}
    (hx : Post R h (.ok ()) Q (x h))
    (hf : ∀ h', Q () h' → Step R h h' → h'.failed = h.failed → Post R h' m P (f () h')) :
    Post R h m P ((x >>= f) h) := by
  have := Post.bind (g := fun _ => m) hx (fun a h' _ hq s e => hf h' hq s e)
  exact this

theorem loopUpH_post {f : Nat → σ → H σ} {g : Nat → σ → M σ} (I : Nat → σ → Heap → Prop) (lo cnt : Nat) (s : σ)
    (h0 : I lo s h)
    (hs : ∀ i s h', lo ≤ i → i < lo + cnt → I i s h' → Step R h h' → h'.failed = h.failed → Post R h' (g i s) (I (i + 1)) (f i s h')) :
    Post R h (loopUp lo cnt s g) (I (lo + cnt)) (loopUpH lo cnt s f h) := by
  induction cnt generalizing lo s h with
  | zero => exact Post.pure h0
  | succ c ih =>
    refine Post.bind (hs lo s h (Nat.le_refl _) (by omega) h0 (Step.refl _ _) rfl) ?_
    intro s' h' _ hi st hfl
    have := ih (lo + 1) s' hi (fun i t h2 h1 h2' h3 s4 f4 => hs i t h2 (by omega) (by omega) h3 (st.trans s4) (by omega))
    rwa [show lo + (c + 1) = lo + 1 + c from by omega]

theorem loopDownH_post {f : Nat → σ → H σ} {g : Nat → σ → M σ} (I : Nat → σ → Heap → Prop) (hi : Nat) (s : σ)
    (h0 : I hi s h)
    (hs : ∀ i s h', i < hi → I (i + 1) s h' → Step R h h' → h'.failed = h.failed → Post R h' (g i s) (I i) (f i s h')) :
    Post R h (loopDown hi s g) (I 0) (loopDownH hi s f h) := by
  induction hi generalizing s h with
  | zero => exact Post.pure h0
  | succ c ih =>
    refine Post.bind (hs c s h (by omega) h0 (Step.refl _ _) rfl) ?_
    intro s' h' _ hi st hfl
    exact ih s' hi (fun i t h2 h1 h3 s4 f4 => hs i t h2 (by omega) h3 (st.trans s4) (by omega))

theorem whileH_post {f : σ → H (σ ⊕ β)} {g : σ → M (σ ⊕ β)} (I : σ → Heap → Prop) (P : β → Heap → Prop) (fuel : Nat) (s : σ)
    (h0 : I s h)
    (hs : ∀ s h', I s h' → Step R h h' → h'.failed = h.failed → Post R h' (g s) (fun r h2 => match r with
      | .inl s' => I s' h2
      | .inr b => P b h2) (f s h')) :
    Post R h (whileM fuel s g) P (whileH fuel s f h) := by
  induction fuel generalizing s h with
  | zero => exact ⟨Step.refl _ _, Or.inl ⟨rfl, rfl⟩⟩
  | succ c ih =>
    refine Post.bind (hs s h h0 (Step.refl _ _) rfl) ?_
    intro r h' _ hq st hfl
    cases r with
    | inl s' => exact ih s' hq (fun t h2 h3 s4 f4 => hs t h2 h3 (st.trans s4) (by omega))
    | inr b => exact Post.pure hq

end

/-! ## Ownership -/

/-- `h` is `h0` with the blocks `L` in addition. Used in proofs only. -/
structure Has (h0 : Heap) (L : List Blk) (h : Heap) : Prop where
  live : ∀ b, h.live b = h0.live b + L.count b
  total : h.total = h0.total + (L.map Blk.bytes).sum

theorem Has.nil (h : Heap) : Has h [] h := ⟨by simp, by simp⟩

theorem Has.perm {h0 h : Heap} {L L' : List Blk} (a : Has h0 L h) (p : L.Perm L') : Has h0 L' h :=
  ⟨fun b => by rw [a.live, p.count_eq], by rw [a.total, (p.map _).sum_nat]⟩

theorem Has.add {h0 h : Heap} {L : List Blk} (a : Has h0 L h) (b : Blk) : Has h0 (b :: L) (h.add b) := by
  refine ⟨fun x => ?_, ?_⟩
  · simp only [Heap.add, a.live, List.count_cons]
    by_cases hx : x = b
    · subst hx; simp; omega
    · simp [hx, Ne.symm hx]
  · simp only [Heap.add, a.total, List.map_cons, List.sum_cons]; omega

theorem Has.got {h0 h : Heap} {L : List Blk} (a : Has h0 L h) (b : Blk) : Has h0 (b :: L) (h.got b) :=
  Has.add (h := { h with reqs := h.reqs + 1 }) ⟨a.live, a.total⟩ b

theorem Has.sub {h0 h : Heap} {L : List Blk} {b : Blk} (a : Has h0 (b :: L) h) : Has h0 L (h.sub b) := by
  refine ⟨fun x => ?_, ?_⟩
  · simp only [Heap.sub, a.live, List.count_cons]
    by_cases hx : x = b
    · subst hx; simp
    · simp [hx, Ne.symm hx]
  · simp only [Heap.sub, a.total, List.map_cons, List.sum_cons]; omega

theorem Has.pos {h0 h : Heap} {L : List Blk} {b : Blk} (a : Has h0 (b :: L) h) : 1 ≤ h.live b := by
  rw [a.live, List.count_cons]; simp; omega

section
variable {R : Role → Prop} {h h0 : Heap} {L : List Blk}

theorem refused_step (hb : R r.role) (hav : ¬ h.av k r = true) : Step R h h.refused :=
  ⟨rfl, by simp [Heap.refused], fun _ _ => rfl, fun _ => ⟨k, r, hb, by simpa using hav⟩⟩

theorem got_step {b : Blk} (hb : b.role ≠ .text ∧ b.role ≠ .container) : Step R h (h.got b) := by
  refine ⟨rfl, Nat.le_refl _, fun x hx => ?_, fun h => absurd h (Nat.lt_irrefl _)⟩
  have : x ≠ b := by rintro rfl; rcases hx with hx | hx <;> simp [hx] at hb
  simp [Heap.got, Heap.add, this]

theorem sub_step {b : Blk} (hb : b.role ≠ .text ∧ b.role ≠ .container) : Step R h (h.sub b) := by
  refine ⟨rfl, Nat.le_refl _, fun x hx => ?_, fun h => absurd h (Nat.lt_irrefl _)⟩
  have : x ≠ b := by rintro rfl; rcases hx with hx | hx <;> simp [hx] at hb
  simp [Heap.sub, this]

theorem newB_post {f : Fam} {b : Blk} (hR : R b.role) (hb : b.role ≠ .text ∧ b.role ≠ .container) (a : Has h0 L h)
    (hf : b.role.fam = f := by rfl) :
    Post R h (.ok ()) (fun _ h' => Has h0 (b :: L) h' ∧ h'.peak = max h.peak (h.total + b.bytes)) (newB f b h) := by
  unfold newB
  rw [if_pos hf]
  split
  · exact ⟨rfl, got_step hb, rfl, a.got b, rfl⟩
  · rename_i hav
    exact ⟨refused_step hR hav, by simp [Heap.refused]⟩

theorem freeB_post {f : Fam} {b : Blk} (hb : b.role ≠ .text ∧ b.role ≠ .container) (a : Has h0 (b :: L) h)
    (hf : b.role.fam = f := by rfl) :
    Post R h (.ok ()) (fun _ h' => Has h0 L h' ∧ h'.peak = h.peak) (freeB f b h) := by
  unfold freeB
  rw [if_pos hf, if_pos a.pos]
  exact ⟨rfl, sub_step hb, rfl, a.sub, rfl⟩

/-- `malloc` of a block that is used at once. -/
theorem mallocUse_post {b : Blk} (hR : R b.role) (hb : b.role ≠ .text ∧ b.role ≠ .container) (a : Has h0 L h)
    (hf : b.role.fam = .c := by rfl) :
    Post R h (.ok ()) (fun _ h' => Has h0 (b :: L) h' ∧ h'.peak = max h.peak (h.total + b.bytes))
      ((mallocB b >>= nonNull) h) := by
  rw [H.bind_def]
  unfold mallocB nonNull
  rw [if_pos hf]
  by_cases hav : h.av h.reqs b = true
  · rw [if_pos hav]
    exact ⟨rfl, got_step hb, rfl, a.got b, rfl⟩
  · rw [if_neg hav]
    exact ⟨refused_step hR hav, Or.inr ⟨rfl, by simp [Heap.refused]⟩⟩

theorem reallocB_post {old new : Nat} (hR : R .buf) (a : Has h0 (List.replicate (if old = 0 then 0 else 1) ⟨.buf, old⟩ ++ L) h) :
    Post R h (.ok ()) (fun _ h' => Has h0 (⟨.buf, new⟩ :: L) h' ∧ h'.peak = max h.peak (h.total + new)) (reallocB old new h) := by
  unfold reallocB
  split
  · split
    · rename_i ho
      rw [if_pos ho] at a
      exact ⟨rfl, got_step (by simp), rfl, a.got _, rfl⟩
    · rename_i ho
      rw [if_neg ho] at a
      have a1 := (a.got ⟨.buf, new⟩).perm (List.Perm.swap _ _ _)
      have := freeB_post (R := R) (f := .c) (by simp) a1
      unfold freeB at this ⊢
      rw [if_pos (by rfl), if_pos a1.pos] at this
      rw [if_pos (by rfl), if_pos a1.pos]
      exact ⟨rfl, (got_step (by simp)).trans this.2.1, rfl, this.2.2.2.1, rfl⟩
  · rename_i hav
    exact ⟨refused_step hR hav, Or.inr ⟨rfl, by simp [Heap.refused]⟩⟩

end

end Flbwt
