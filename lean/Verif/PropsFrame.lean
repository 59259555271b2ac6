import Verif.Frame
import Verif.PropsSession
import Verif.PropsFileHeap

/-!
# C83, C84: memory of the caller, and histories in which memory runs out

C83: a call never releases memory other than its own (and the text, if it is asked to), wherever memory runs out, and its
outcome does not depend on what else is on the heap.

C84: a client that catches exceptions and goes on.
-/

namespace Flbwt

open FH

/-! ## C83 -/

theorem extra_sub (h : Heap) (l : Blk → Nat) (hl : ∀ b, l b ≤ h.live b) :
    h = ({ h with live := l } : Heap).extra (fun b => h.live b - l b) := by
  cases h
  simp only [Heap.extra, Heap.mk.injEq, true_and, and_true]
  funext b
  have := hl b
  simp only at this
  omega

/-- the heap reduced to the text. Used in proofs only. -/
def onlyText (freeT : Bool) (T : Mem Nat) (b : Blk) : Nat := if freeT = true ∧ b = ⟨.text, T.size⟩ then 1 else 0

theorem onlyText_le {freeT : Bool} {T : Mem Nat} {h : Heap} (ht : TextOwned freeT T h) (b : Blk) : onlyText freeT T b ≤ h.live b := by
  unfold onlyText
  split
  · rename_i hc
    obtain ⟨h1, rfl⟩ := hc
    exact (ht h1).1
  · exact Nat.zero_le _

theorem onlyText_owned {freeT : Bool} {T : Mem Nat} {h : Heap} (ht : TextOwned freeT T h) :
    TextOwned freeT T { h with live := onlyText freeT T } := by
  intro hf
  exact ⟨by simp [onlyText, hf], (ht hf).2⟩

section
variable {T : Mem Nat} {s : List Nat}

theorem good_no_badFree (w : World) (g : GoodCall w.junk w.sorter T s) (freeT : Bool) (h : Heap) (ht : TextOwned freeT T h) :
    (bwtStringH w (some T) s.length freeT h).1 ≠ .error .badFree := by
  rcases C48_every_allocation_failure w g freeT h ht with ⟨r, T', h', e, _⟩ | ⟨e, h', x, he, _⟩
  · rw [e]; simp
  · rw [x]
    rcases he with rfl | rfl <;> simp

theorem bwtStringH_reduced (w : World) (g : GoodCall w.junk w.sorter T s) (freeT : Bool) (h : Heap) (ht : TextOwned freeT T h) :
    bwtStringH w (some T) s.length freeT h =
      ((bwtStringH w (some T) s.length freeT { h with live := onlyText freeT T }).1,
       (bwtStringH w (some T) s.length freeT { h with live := onlyText freeT T }).2.extra fun b => h.live b - onlyText freeT T b) := by
  conv_lhs => rw [extra_sub h _ (onlyText_le ht)]
  exact (bwtStringH_framed w (some T) s.length freeT).frame _ _ (good_no_badFree w g freeT _ (onlyText_owned ht))

/-- **C83** at the end of a call, whatever its outcome and wherever memory ran out, every block that was live before the call is
still live, except the text if the caller asked for its release. -/
theorem C83_memory_of_the_caller_stays (w : World) (g : GoodCall w.junk w.sorter T s) (freeT : Bool) (h : Heap)
    (ht : TextOwned freeT T h) (b : Blk) :
    h.live b ≤ (bwtStringH w (some T) s.length freeT h).2.live b + (if freeT = true ∧ b = ⟨.text, T.size⟩ then 1 else 0) := by
  rw [bwtStringH_reduced w g freeT h ht]
  show h.live b ≤ _ + (h.live b - onlyText freeT T b) + onlyText freeT T b
  omega

/-- **C83** the outcome of a call, and how many requests it makes, do not depend on which other blocks are live: two heaps
that differ only in the blocks held give the same result and the same increase of every count. -/
theorem C83_outcome_independent_of_other_memory (w : World) (g : GoodCall w.junk w.sorter T s) (freeT : Bool) (h : Heap)
    (l : Blk → Nat) (ht : TextOwned freeT T h) (hl : TextOwned freeT T { h with live := l }) :
    (bwtStringH w (some T) s.length freeT h).1 = (bwtStringH w (some T) s.length freeT { h with live := l }).1 ∧
    (bwtStringH w (some T) s.length freeT h).2.reqs = (bwtStringH w (some T) s.length freeT { h with live := l }).2.reqs ∧
    (bwtStringH w (some T) s.length freeT h).2.failed = (bwtStringH w (some T) s.length freeT { h with live := l }).2.failed ∧
    ∀ b, (bwtStringH w (some T) s.length freeT h).2.live b + l b =
      (bwtStringH w (some T) s.length freeT { h with live := l }).2.live b + h.live b := by
  have e1 := bwtStringH_reduced w g freeT h ht
  have e2 := bwtStringH_reduced w g freeT { h with live := l } hl
  have l1 := onlyText_le ht
  have l2 := onlyText_le hl
  simp only at e2 l2
  generalize bwtStringH w (some T) s.length freeT { h with live := onlyText freeT T } = x at e1 e2
  rw [e1, e2]
  refine ⟨rfl, rfl, rfl, fun b => ?_⟩
  simp only [Heap.extra]
  have := l1 b
  have := l2 b
  omega

/-- **C83** a call fails for lack of memory only if one of its own requests was refused: request number `k` between the number
of requests before the call and that at its end. -/
theorem C83_fails_only_by_own_request (w : World) (g : GoodCall w.junk w.sorter T s) (freeT : Bool) (h : Heap)
    (ht : TextOwned freeT T h) {e : HErr} {h' : Heap} (hx : bwtStringH w (some T) s.length freeT h = (.error e, h')) :
    ∃ k b, h.reqs ≤ k ∧ k < h'.reqs ∧ h.av k b = false := by
  have ha := (bwtStringH_framed w (some T) s.length freeT).asks h
  rcases C48_every_allocation_failure w g freeT h ht with ⟨r, T', h1, x, _⟩ | ⟨e', h1, x, _, hf, _⟩
  · rw [x] at hx; cases hx
  · rw [x] at hx ha
    cases hx
    exact ha.why hf

/-- **C83** whatever happened before: if memory is available from now on, the call returns the transform and adds exactly the
two blocks of the result (C47 assumes this of all requests, also those of the past). -/
theorem C83_memory_available_again (w : World) (g : GoodCall w.junk w.sorter T s) (freeT : Bool) (h : Heap)
    (ht : TextOwned freeT T h) (hav : ∀ k b, h.reqs ≤ k → h.av k b = true) :
    ∃ r T' h', bwtStringH w (some T) s.length freeT h = (.ok (some r, T'), h') ∧ IsBWT s r.bwt.data r.last ∧
      OnlyResultAdded freeT T s.length h h' := by
  rcases C48_every_allocation_failure w g freeT h ht with ⟨r, T', h1, x, e2, _, _, o⟩ | ⟨e', h1, x, _⟩
  · obtain ⟨r0, e0, _, hr0⟩ := bwtString_good w g freeT
    rw [e0] at e2
    cases e2
    exact ⟨_, _, _, x, hr0, o⟩
  · obtain ⟨k, b, h1, _, h3⟩ := C83_fails_only_by_own_request w g freeT h ht x
    rw [hav k b h1] at h3
    cases h3

end

/-- **C83** for every call, also one outside the documented conditions (any text, any length): unless it releases a block that
is not live, more live blocks on the heap change nothing and all of them stay. -/
theorem C83_any_call (w : World) (T : Option (Mem Nat)) (n : Nat) (freeT : Bool) (h h2 : Heap)
    (hm : ∀ b, h.live b ≤ h2.live b) (hs : h2 = { h with live := h2.live })
    (hb : (bwtStringH w T n freeT h).1 ≠ .error .badFree) :
    (bwtStringH w T n freeT h2).1 = (bwtStringH w T n freeT h).1 ∧
      ∀ b, (bwtStringH w T n freeT h2).2.live b = (bwtStringH w T n freeT h).2.live b + (h2.live b - h.live b) := by
  have e : h2 = h.extra (fun b => h2.live b - h.live b) := by
    conv_lhs => rw [hs]
    simp only [Heap.extra, Heap.mk.injEq, true_and, and_true]
    funext b
    have := hm b
    omega
  have := (bwtStringH_framed w T n freeT).frame h (fun b => h2.live b - h.live b) hb
  rw [← e] at this
  rw [this]
  exact ⟨rfl, fun b => rfl⟩

/-! ### `bwt_file` -/

/-- as `Framed`, for computations with files. Used in proofs only. -/
def FramedF {α : Type} (m : FH α) : Prop := ∀ (s : FHState) (F : Blk → Nat), (m s).1 ≠ .error .badFree →
  m { s with heap := s.heap.extra F } = ((m s).1, { (m s).2 with heap := (m s).2.heap.extra F })

namespace FramedF
variable {α β : Type}

theorem pure (a : α) : FramedF (Pure.pure a : FH α) := fun _ _ _ => rfl
theorem lift (m : M α) : FramedF (FH.lift m) := by intro s F _; cases m <;> rfl
theorem fail (e : Err) : FramedF (FH.fail e : FH α) := fun _ _ _ => rfl
theorem liftH {m : H α} (hm : Framed m) : FramedF (FH.liftH m) := by
  intro s F hne
  have := hm.frame s.heap F (by unfold FH.liftH at hne; exact hne)
  unfold FH.liftH
  rw [this]
theorem bind {m : FH α} {f : α → FH β} (hm : FramedF m) (hf : ∀ a, FramedF (f a)) : FramedF (m >>= f) := by
  intro s F hne
  change (FH.bind m f s).1 ≠ _ at hne
  show FH.bind m f _ = ((FH.bind m f s).1, _)
  show FH.bind m f _ = ((FH.bind m f s).1, { (FH.bind m f s).2 with heap := (FH.bind m f s).2.heap.extra F })
  unfold FH.bind at hne ⊢
  have h1 := hm s F
  rcases hr : m s with ⟨r, s'⟩
  rw [hr] at hne h1
  cases r with
  | ok a =>
    rw [h1 (by simp)]
    exact hf a s' F hne
  | error e =>
    rw [h1 (by simpa using hne)]
theorem close : FramedF FH.close := by
  intro s F _
  unfold FH.close
  by_cases hc : 1 ≤ s.streams
  · rw [if_pos hc, if_pos (show 1 ≤ ({ s with heap := s.heap.extra F } : FHState).streams from hc)]
  · rw [if_neg hc, if_neg (show ¬ 1 ≤ ({ s with heap := s.heap.extra F } : FHState).streams from hc)]
theorem openR (h : Host) (name : String) : FramedF (FH.openR h name) := by
  intro s F _
  unfold FH.openR
  simp only
  cases s.files name with
  | none => rfl
  | some c =>
    simp only
    split <;> rfl
theorem openW (h : Host) (name : String) : FramedF (FH.openW h name) := by
  intro s F _
  unfold FH.openW
  split <;> rfl
theorem write (h : Host) (name : String) (y : List Nat) : FramedF (FH.write h name y) := fun _ _ _ => rfl
theorem ite {c : Prop} [Decidable c] {x y : FH α} (hx : FramedF x) (hy : FramedF y) : FramedF (if c then x else y) := by
  split
  · exact hx
  · exact hy

end FramedF

theorem writeRowsH_framed (h : Host) (name : String) (n : Nat) (r : BwtResult) : FramedF (writeRowsH h name n r) := by
  unfold writeRowsH
  exact .ite (.bind (.lift _) (fun _ => .write _ _ _)) (.ite (.bind (.lift _) (fun _ => .write _ _ _))
    (.bind (.lift _) (fun _ => .bind (.write _ _ _) (fun _ => .bind (.lift _) (fun _ => .write _ _ _)))))

theorem writeResultH_framed (h : Host) (out : String) (n : Nat) (b : Option BwtResult) : FramedF (writeResultH h out n b) := by
  unfold writeResultH
  refine .bind (.openW _ _) (fun o => .ite ?_ (.fail _))
  split
  · exact .bind (.liftH (.newB _ _)) (fun _ => .bind (.write _ _ _) (fun _ => .bind (.liftH (.freeB _ _)) (fun _ =>
      .bind (writeRowsH_framed _ _ _ _) (fun _ => .bind .close (fun _ => .liftH (releaseResultH_framed _))))))
  · exact .close

theorem bwtFileH_framed (w : World) (h : Host) (inp out : String) : FramedF (bwtFileH w h inp out) := by
  unfold bwtFileH
  refine .bind (.openR _ _) (fun c => ?_)
  split
  · exact .fail _
  · refine .bind (.liftH (.mallocB _)) (fun p => .ite ?_ (.bind .close (fun _ => .fail _)))
    exact .bind (.lift _) (fun _ => .ite (.fail _) (.bind .close (fun _ => .bind (.lift _) (fun _ =>
      .bind (.liftH (bwtStringH_framed _ _ _ _)) (fun _ => writeResultH_framed _ _ _ _)))))

section
variable {w : World} {h : Host} {inp out : String} {s : FHState} {content : List Nat}

/-- The outcomes of a call of `bwt_file` (proof helper). -/
theorem bwtFileH_ends (g : FileCallH w h inp s content) (ha : TakesAll h) :
    (∃ bytes s', bwtFileH w h inp out s = (.ok (), s') ∧ FileFormat content bytes ∧ s'.files out = some bytes ∧
      s'.heap.live = s.heap.live ∧ s'.heap.failed = s.heap.failed ∧ s'.streams = s.streams) ∨
    (∃ e s', bwtFileH w h inp out s = (.error e, s') ∧ (e = .badAlloc ∨ (∃ x, e = .prog (.throw x)) ∨ e = .prog (.ub .nullDeref)) ∧
      s.heap.failed ≤ s'.heap.failed ∧ s.streams ≤ s'.streams ∧
      (h.mayWrite out = true → s.heap.failed < s'.heap.failed) ∧ (e = .prog (.ub .nullDeref) → s.heap.failed < s'.heap.failed)) := by
  by_cases hw : h.mayWrite out = true
  · rcases C57_file_every_allocation_failure g hw ha with
      ⟨bytes, s', e, f1, f2, _, f3, f4, f5⟩ | ⟨e, s', x, _, f3, f5, he⟩ | ⟨s', x, _, _, f3, f5, _⟩
    · exact Or.inl ⟨bytes, s', e, f1, f2, f4, f5, f3⟩
    · refine Or.inr ⟨e, s', x, ?_, Nat.le_of_lt f5, Nat.le_of_eq f3.symm, fun _ => f5, fun _ => f5⟩
      rcases he with ⟨rfl, _⟩ | ⟨rfl | rfl, _⟩
      · exact Or.inr (Or.inl ⟨_, rfl⟩)
      · exact Or.inl rfl
      · exact Or.inr (Or.inr rfl)
    · exact Or.inr ⟨_, s', x, Or.inl rfl, Nat.le_of_lt f5, by omega, fun _ => f5, fun _ => f5⟩
  · right
    rcases bwtFileH_upto g out with ⟨c, e⟩ | ⟨e, h', x, he, hf, _⟩ | ⟨r, h', x, _, _, hf, _⟩
    · exact ⟨_, _, e, Or.inr (Or.inl ⟨_, rfl⟩), Nat.le_succ _, Nat.le_refl _, fun c => absurd c hw, fun c => by cases c⟩
    · refine ⟨e, _, x, ?_, Nat.le_of_lt hf, Nat.le_refl _, fun c => absurd c hw, fun _ => hf⟩
      rcases he with rfl | rfl
      · exact Or.inl rfl
      · exact Or.inr (Or.inr rfl)
    · rw [x]
      unfold writeResultH
      rw [runH_ok (a := false) (s' := { s with heap := h' }) (by unfold FH.openW; rw [if_neg hw])]
      exact ⟨_, _, rfl, Or.inr (Or.inl ⟨_, rfl⟩), Nat.le_of_eq hf.symm, Nat.le_refl _, fun c => absurd c hw, fun c => by cases c⟩

theorem bwtFileH_no_badFree (g : FileCallH w h inp s content) (ha : TakesAll h) : (bwtFileH w h inp out s).1 ≠ .error .badFree := by
  rcases bwtFileH_ends (out := out) g ha with ⟨_, _, e, _⟩ | ⟨e, _, x, he, _⟩
  · rw [e]; simp
  · rw [x]
    rcases he with rfl | ⟨_, rfl⟩ | rfl <;> simp

/-- **C83** a call of `bwt_file`, whatever its outcome, wherever memory runs out, whether or not the output can be opened,
releases no block that was live before the call. -/
theorem C83_file_call (g : FileCallH w h inp s content) (ha : TakesAll h) (b : Blk) :
    s.heap.live b ≤ (bwtFileH w h inp out s).2.heap.live b := by
  have g' : FileCallH w h inp { s with heap := { s.heap with live := fun _ => 0 } } content :=
    ⟨g.file, g.read, g.tell, g.full, g.len3, g.len57, g.byte, g.sort, g.safe, g.room⟩
  have e := extra_sub s.heap (fun _ => 0) (fun _ => Nat.zero_le _)
  have hs : s = { ({ s with heap := { s.heap with live := fun _ => 0 } } : FHState) with
      heap := ({ s.heap with live := fun _ => 0 } : Heap).extra (fun b => s.heap.live b - 0) } := by
    rw [← e]
  have := bwtFileH_framed w h inp out { s with heap := { s.heap with live := fun _ => 0 } } (fun b => s.heap.live b - 0)
    (bwtFileH_no_badFree g' ha)
  rw [← hs] at this
  rw [this]
  show s.heap.live b ≤ _ + (s.heap.live b - 0)
  omega

end

/-! ## C84 -/

/-- One action of a client that goes on when a call throws. `call`: obtain the text, call `bwt_string`, keep the result.
`file`: put `content` into the file `inp`, call `bwt_file`. `release i`: release the `i`-th of the results kept, if there is
one. -/
inductive COp where
  | call (w : World) (T : Mem Nat) (s : List Nat) (freeT : Bool)
  | file (w : World) (host : Host) (inp out : String) (content : List Nat)
  | release (i : Nat)

/-- `try { x } catch (...) { }`: the exceptions of the library and `std::bad_alloc` are caught, undefined behaviour is not. -/
def tryF {α : Type} (x : FH α) : FH (Option α) := fun s =>
  match x s with
  | (.ok a, s') => (.ok (some a), s')
  | (.error .badAlloc, s') => (.ok none, s')
  | (.error (.prog (.throw _)), s') => (.ok none, s')
  | (.error e, s') => (.error e, s')

/-- What a client remembers: the results it keeps, and for every call of `bwt_file` that returned the contents of the input
and of the output at that moment. -/
structure Client where
  kept : List Kept
  written : List (List Nat × Option (List Nat))

/-- the client stores a file. Not code of the repository. -/
def storeF (name : String) (content : List Nat) : FH Unit := fun s => (.ok (), { s with files := setFile s.files name content })

/-- the client looks at a file. Not code of the repository. -/
def lookF (name : String) : FH (Option (List Nat)) := fun s => (.ok (s.files name), s)

/-- The action. When `bwt_string` throws, the text is released by the client if it did not pass `free_T`; otherwise it is
left alone, as the client cannot know whether it is still there (C49). Not code of the repository: a client, written with the
operations of the model. -/
def COp.exec (c : Client) : COp → FH Client
  | .call w T s freeT => do
    let p ← liftH (mallocB ⟨.text, T.size⟩)
    if p then do
      let r ← tryF (liftH (bwtStringH w (some T) s.length freeT))
      liftH (dropText freeT T.size)
      match r with
      | some r => pure { c with kept := c.kept ++ [(s.length, r.1)] }
      | none => pure c
    else pure c
  | .file w host inp out content => do
    storeF inp content
    let r ← tryF (bwtFileH w host inp out)
    let y ← lookF out
    match r with
    | some _ => pure { c with written := c.written ++ [(content, y)] }
    | none => pure c
  | .release i =>
    match c.kept[i]? with
    | none => pure c
    | some k => do
      liftH (releaseResultH k.1)
      pure { c with kept := c.kept.eraseIdx i }

/-- A history. -/
def COp.execs (c : Client) : List COp → FH Client
  | [] => pure c
  | o :: os => do
    let c ← o.exec c
    COp.execs c os

/-- Specification: the client can hold the transforms of the texts `final` after the history, if it held those of `kept` before:
every call may have failed. -/
inductive COp.Holds : List (List Nat) → List COp → List (List Nat) → Prop
  | nil (kept : List (List Nat)) : Holds kept [] kept
  | done {kept w T s freeT os final} : Holds (kept ++ [s]) os final → Holds kept (.call w T s freeT :: os) final
  | failed {kept w T s freeT os final} : Holds kept os final → Holds kept (.call w T s freeT :: os) final
  | file {kept w host inp out content os final} : Holds kept os final → Holds kept (.file w host inp out content :: os) final
  | release {kept i os final} : Holds (kept.eraseIdx i) os final → Holds kept (.release i :: os) final

/-- Specification: the texts whose transforms the client holds if every call returns. -/
def COp.all (kept : List (List Nat)) : List COp → List (List Nat)
  | [] => kept
  | .call _ _ s _ :: os => COp.all (kept ++ [s]) os
  | .file .. :: os => COp.all kept os
  | .release i :: os => COp.all (kept.eraseIdx i) os

/-- The calls are good calls: texts and files of 3 to 2^57 bytes, a host that reads and writes completely. The output file may
be one that cannot be opened. -/
def COp.Good : COp → Prop
  | .call w T s _ => GoodCall w.junk w.sorter T s
  | .file w host inp _ content => host.mayRead inp = true ∧ host.tell content = content.length ∧ content.length ≤ host.readMax ∧
      3 ≤ content.length ∧ content.length < 2 ^ 57 ∧ (∀ x ∈ content, x < 256) ∧ SortsOK w.sorter ∧ LengthsSafe w.junk content ∧
      enoughFor content.length ≤ w.junk.lim ∧ TakesAll host
  | .release _ => True

/-- The output file can be opened. -/
def COp.Writable : COp → Prop
  | .file _ host _ out _ => host.mayWrite out = true
  | _ => True

/-- The state between two actions. Used in proofs only. -/
structure ClInv (W : Prop) (s0 : FHState) (c : Client) (texts : List (List Nat)) (s : FHState) : Prop where
  failed : s0.heap.failed ≤ s.heap.failed
  live : ∀ b, s0.heap.live b + resultBlocks texts b ≤ s.heap.live b
  clean : W → s.heap.failed = s0.heap.failed → ∀ b, s.heap.live b = s0.heap.live b + resultBlocks texts b
  res : List.Forall₂ KeptOK c.kept texts
  files : ∀ x ∈ c.written, ∃ bytes, x.2 = some bytes ∧ FileFormat x.1 bytes

/-- the end of an action that began in `s1`. Used in proofs only. -/
def ClEnd (W : Prop) (s0 s1 : FHState) (Q : List (List Nat) → FHState → Prop) (r : Except HErr Client × FHState) : Prop :=
  (∃ c texts s, r = (.ok c, s) ∧ s1.heap.failed ≤ s.heap.failed ∧ Q texts s ∧ ClInv W s0 c texts s) ∨
  (∃ s, r = (.error (.prog (.ub .nullDeref)), s) ∧ s0.heap.failed < s.heap.failed)

theorem COp.exec_release {W : Prop} {s0 s : FHState} {c : Client} {texts : List (List Nat)} (I : ClInv W s0 c texts s) (i : Nat) :
    ClEnd W s0 s (fun t _ => t = texts.eraseIdx i) (COp.exec c (.release i) s) := by
  left
  have hl := I.res.length_eq
  by_cases hi : i < texts.length
  swap
  · have hk : c.kept[i]? = none := by simp; omega
    refine ⟨c, texts, s, ?_, Nat.le_refl _, (List.eraseIdx_of_length_le (by omega)).symm, I⟩
    simp only [COp.exec, hk]
    rfl
  obtain ⟨k, hk⟩ : ∃ k, c.kept[i]? = some k := ⟨c.kept[i], by simp [hl, hi]⟩
  obtain ⟨x, hx⟩ : ∃ x, texts[i]? = some x := ⟨texts[i], by simp [hi]⟩
  have hks : KeptOK k x := by
    have := (List.forall₂_iff_get.1 I.res).2 i (by omega) hi
    rw [List.getElem?_eq_some_iff] at hk hx
    obtain ⟨_, rfl⟩ := hk
    obtain ⟨_, rfl⟩ := hx
    simpa using this
  have hr := fun b => resultBlocks_erase texts i x hx b
  have l1 := I.live (bwtBlk x.length)
  have l2 := I.live resultBlk
  rw [hr (bwtBlk x.length), if_pos rfl, if_neg (by simp)] at l1
  rw [hr resultBlk, if_neg (by simp), if_pos rfl] at l2
  have hrel : releaseResultH k.1 s.heap = (.ok (), (s.heap.sub (bwtBlk x.length)).sub resultBlk) := by
    simp only [releaseResultH, H.bind_def, hks.1]
    unfold freeB
    rw [if_pos (by rfl), if_pos (by omega)]
    simp only
    rw [if_pos (by rfl), if_pos (by simp only [Heap.sub]; rw [if_neg (by simp)]; omega)]
  have hsub : ∀ b, ((s.heap.sub (bwtBlk x.length)).sub resultBlk).live b + (if b = ⟨.bwt, x.length + 1⟩ then 1 else 0) +
      (if b = ⟨.result, 16⟩ then 1 else 0) = s.heap.live b := by
    intro b
    simp only [Heap.sub]
    by_cases c1 : b = bwtBlk x.length
    · have c2 : ¬ b = resultBlk := by subst c1; simp
      rw [if_neg c2, if_pos c1, if_pos c1, if_neg c2, c1]
      omega
    · by_cases c2 : b = resultBlk
      · rw [if_pos c2, if_neg c1, if_neg c1, if_pos c2, c2]
        omega
      · rw [if_neg c2, if_neg c1, if_neg c1, if_neg c2]
        omega
  refine ⟨{ c with kept := c.kept.eraseIdx i }, texts.eraseIdx i, { s with heap := (s.heap.sub (bwtBlk x.length)).sub resultBlk }, ?_,
    Nat.le_refl _, rfl, I.failed, fun b => ?_, fun hW hf b => ?_, ?_, I.files⟩
  · simp only [COp.exec, hk]
    rw [runH_ok (a := ()) (s' := { s with heap := (s.heap.sub (bwtBlk x.length)).sub resultBlk }) (by unfold liftH; rw [hrel])]
    rfl
  · have h1 := I.live b
    have h2 := hsub b
    rw [hr b] at h1
    simp only
    omega
  · have h1 := I.clean hW hf b
    have h2 := hsub b
    rw [hr b] at h1
    simp only
    omega
  · rw [List.forall₂_iff_get]
    have h2 := (List.forall₂_iff_get.1 I.res).2
    refine ⟨by simp [List.length_eraseIdx, hl], ?_⟩
    intro j hj1 hj2
    simp only at hj1
    simp only [List.get_eq_getElem, List.getElem_eraseIdx]
    split
    · exact h2 j (by rw [List.length_eraseIdx] at hj1; split at hj1 <;> omega)
        (by rw [List.length_eraseIdx] at hj2; split at hj2 <;> omega)
    · exact h2 (j + 1) (by rw [List.length_eraseIdx] at hj1; split at hj1 <;> omega)
        (by rw [List.length_eraseIdx] at hj2; split at hj2 <;> omega)

theorem dropText_run {freeT : Bool} {m : Nat} {s : FHState} (h : freeT = false → 1 ≤ s.heap.live ⟨.text, m⟩) :
    liftH (dropText freeT m) s = (.ok (), { s with heap := if freeT then s.heap else s.heap.sub ⟨.text, m⟩ }) := by
  unfold liftH dropText
  cases freeT with
  | true => rfl
  | false =>
    simp only [Bool.false_eq_true, if_false]
    unfold freeB
    rw [if_pos (by rfl), if_pos (h rfl)]

theorem COp.exec_call {W : Prop} {s0 s : FHState} {c : Client} {texts : List (List Nat)} (I : ClInv W s0 c texts s) (w : World)
    (T : Mem Nat) (x : List Nat) (freeT : Bool) (g : GoodCall w.junk w.sorter T x) :
    ClEnd W s0 s (fun t s' => t = texts ∧ s.heap.failed < s'.heap.failed ∨ t = texts ++ [x]) (COp.exec c (.call w T x freeT) s) := by
  dsimp only [COp.exec]
  by_cases hav : s.heap.av s.heap.reqs ⟨.text, T.size⟩ = true
  swap
  · rw [runH_ok (a := false) (s' := { s with heap := s.heap.refused })
      (by unfold liftH mallocB; dsimp only; rw [if_pos (by rfl), if_neg hav])]
    refine Or.inl ⟨c, texts, { s with heap := s.heap.refused }, rfl, Nat.le_succ _, Or.inl ⟨rfl, Nat.lt_succ_self _⟩,
      Nat.le_trans I.failed (Nat.le_succ _), I.live, fun _ hf => ?_, I.res, I.files⟩
    have := I.failed
    simp only [Heap.refused] at hf
    omega
  rw [runH_ok (a := true) (s' := { s with heap := s.heap.got ⟨.text, T.size⟩ })
      (by unfold liftH mallocB; dsimp only; rw [if_pos (by rfl), if_pos hav])]
  simp only [if_true]
  have hto : TextOwned freeT T (s.heap.got ⟨.text, T.size⟩) := by
    intro _
    simp [Heap.got, Heap.add]
  have hkeep := C83_memory_of_the_caller_stays w g freeT (s.heap.got ⟨.text, T.size⟩) hto
  have hlive : ∀ b, (s.heap.got ⟨.text, T.size⟩).live b = s.heap.live b + (if b = ⟨.text, T.size⟩ then 1 else 0) := by
    intro b
    simp only [Heap.got, Heap.add]
    split <;> omega
  have hgf : (s.heap.got ⟨.text, T.size⟩).failed = s.heap.failed := rfl
  have hI := I.failed
  -- after the call and the release of the text by the client
  have fin : ∀ h1 : Heap, (∀ b, (s.heap.got ⟨.text, T.size⟩).live b ≤ h1.live b + (if freeT = true ∧ b = ⟨.text, T.size⟩ then 1 else 0)) →
      ∀ b, s.heap.live b ≤ (if freeT then h1 else h1.sub ⟨.text, T.size⟩ : Heap).live b := by
    intro h1 hk b
    have := hk b
    rw [hlive b] at this
    cases freeT with
    | true =>
      simp only [true_and] at this
      simp only [if_true]
      omega
    | false =>
      simp only [Bool.false_eq_true, false_and, if_false] at this
      simp only [Bool.false_eq_true, if_false, Heap.sub]
      by_cases hb : b = ⟨.text, T.size⟩
      · rw [if_pos hb] at this ⊢; omega
      · rw [if_neg hb] at this ⊢; omega
  have hdrop : ∀ h1 : Heap, (∀ b, (s.heap.got ⟨.text, T.size⟩).live b ≤ h1.live b + (if freeT = true ∧ b = ⟨.text, T.size⟩ then 1 else 0)) →
      liftH (dropText freeT T.size) { s with heap := h1 } =
        (.ok (), { s with heap := if freeT then h1 else h1.sub ⟨.text, T.size⟩ }) := by
    intro h1 hk
    refine dropText_run (s := { s with heap := h1 }) ?_
    rintro rfl
    have := hk ⟨.text, T.size⟩
    rw [hlive] at this
    simp only [Bool.false_eq_true, false_and, if_false, if_true] at this
    simp only
    omega
  have hfl : ∀ h1 : Heap, (if freeT then h1 else h1.sub ⟨.text, T.size⟩ : Heap).failed = h1.failed := by
    intro h1; cases freeT <;> rfl
  obtain ⟨r0, e0, _, hr0⟩ := bwtString_good w g freeT
  rcases C48_every_allocation_failure w g freeT (s.heap.got ⟨.text, T.size⟩) hto with ⟨r, T', h1, e1, e2, f1, a1, o1⟩ | ⟨e, h1, e1, he, f1, _⟩
  · rw [e1] at hkeep
    simp only at hkeep
    rw [e0] at e2
    cases e2
    have fin2 : ∀ b, (if freeT then h1 else h1.sub ⟨.text, T.size⟩ : Heap).live b =
        s.heap.live b + (if b = ⟨.bwt, x.length + 1⟩ then 1 else 0) + (if b = ⟨.result, 16⟩ then 1 else 0) := by
      intro b
      have ho := o1 b
      rw [hlive b] at ho
      cases freeT with
      | true =>
        simp only [true_and] at ho
        simp only [if_true]
        omega
      | false =>
        simp only [Bool.false_eq_true, false_and, if_false] at ho
        simp only [Bool.false_eq_true, if_false, Heap.sub]
        by_cases hb : b = ⟨.text, T.size⟩
        · rw [if_pos hb] at ho ⊢; omega
        · rw [if_neg hb] at ho ⊢; omega
    rw [runH_ok (m := tryF _) (a := some (some r0, Flbwt.release freeT T)) (s' := { s with heap := h1 })
      (by unfold tryF liftH; simp only [e1]), runH_ok (hdrop h1 hkeep)]
    refine Or.inl ⟨_, texts ++ [x], _, rfl, ?_, Or.inr rfl, ?_, fun b => ?_, fun hW hf b => ?_, ?_, I.files⟩
    · simp only [hfl]; omega
    · simp only [hfl]; omega
    · have h1 := I.live b
      have h2 := fin2 b
      rw [resultBlocks_append]
      simp only
      omega
    · simp only [hfl] at hf
      have h1 := I.clean hW (by omega) b
      have h2 := fin2 b
      rw [resultBlocks_append]
      simp only
      omega
    · exact List.rel_append I.res (.cons ⟨rfl, r0, rfl, hr0⟩ .nil)
  · rw [e1] at hkeep
    simp only at hkeep
    rcases he with rfl | rfl
    · rw [runH_ok (m := tryF _) (a := none) (s' := { s with heap := h1 })
        (by unfold tryF liftH; simp only [e1]), runH_ok (hdrop h1 hkeep)]
      refine Or.inl ⟨c, texts, _, rfl, ?_, Or.inl ⟨rfl, ?_⟩, ?_, fun b => ?_, fun hW hf b => ?_, I.res, I.files⟩
      · simp only [hfl]; omega
      · simp only [hfl]; omega
      · simp only [hfl]; omega
      · exact Nat.le_trans (I.live b) (fin h1 hkeep b)
      · simp only [hfl] at hf; omega
    · rw [runH_err (m := tryF _) (e := .prog (.ub .nullDeref)) (s' := { s with heap := h1 })
        (by unfold tryF liftH; simp only [e1])]
      exact Or.inr ⟨_, rfl, by show _ < h1.failed; omega⟩

theorem COp.exec_file {W : Prop} {s0 s : FHState} {c : Client} {texts : List (List Nat)} (I : ClInv W s0 c texts s) (w : World)
    (host : Host) (inp out : String) (content : List Nat) (g : (COp.file w host inp out content).Good)
    (hw : W → (COp.file w host inp out content).Writable) :
    ClEnd W s0 s (fun t _ => t = texts) (COp.exec c (.file w host inp out content) s) := by
  obtain ⟨g1, g2, g3, g4, g5, g6, g7, g8, g9, ha⟩ := g
  have G : FileCallH w host inp { s with files := setFile s.files inp content } content :=
    ⟨setFile_at _ _ _, g1, g2, g3, g4, g5, g6, g7, g8, g9⟩
  have hI := I.failed
  dsimp only [COp.exec]
  rw [runH_ok (m := storeF inp content) (s := s) (a := ()) (s' := { s with files := setFile s.files inp content }) rfl]
  have hkeep := C83_file_call (out := out) G ha
  rcases bwtFileH_ends (out := out) G ha with ⟨bytes, s', e, h1, h2, h3, h4, h5⟩ | ⟨e, s', x, he, h1, h2, h3, h4⟩
  · rw [runH_ok (m := tryF _) (a := some ()) (s' := s') (by unfold tryF; rw [e]), runH_ok (m := lookF out) (a := some bytes) (s' := s')
      (by unfold lookF; rw [h2])]
    simp only at h3 h4
    refine Or.inl ⟨_, texts, s', rfl, Nat.le_of_eq h4.symm, rfl, by omega, fun b => by rw [h3]; exact I.live b,
      fun hW hf b => by rw [h3]; exact I.clean hW (by omega) b, I.res, ?_⟩
    intro y hy
    rcases List.mem_append.1 hy with hy | hy
    · exact I.files y hy
    · rw [List.mem_singleton] at hy
      subst hy
      exact ⟨bytes, rfl, h1⟩
  · rw [x] at hkeep
    simp only at hkeep h1 h3 h4
    have hok : ∀ (y : Option (List Nat)), lookF out s' = (.ok y, s') → tryF (bwtFileH w host inp out) { s with files := setFile s.files inp content } = (.ok none, s') →
        ClEnd W s0 s (fun t _ => t = texts) ((tryF (bwtFileH w host inp out) >>= fun r => lookF out >>= fun y =>
          match r with
          | some _ => pure { c with written := c.written ++ [(content, y)] }
          | none => pure c) { s with files := setFile s.files inp content }) := by
      intro y hy ht
      rw [runH_ok ht, runH_ok hy]
      refine Or.inl ⟨c, texts, s', rfl, h1, rfl, by omega, fun b => Nat.le_trans (I.live b) (hkeep b), fun hW hf b => ?_, I.res, I.files⟩
      have := h3 (hw hW)
      omega
    rcases he with rfl | ⟨z, rfl⟩ | rfl
    · exact hok _ rfl (by unfold tryF; rw [x])
    · exact hok _ rfl (by unfold tryF; rw [x])
    · rw [runH_err (m := tryF _) (e := .prog (.ub .nullDeref)) (s' := s') (by unfold tryF; rw [x])]
      exact Or.inr ⟨s', rfl, by have := h4 rfl; omega⟩

theorem COp.execs_spec (W : Prop) (s0 : FHState) (ops : List COp) : ∀ (c : Client) (texts : List (List Nat)) (s : FHState),
    ClInv W s0 c texts s → (∀ o ∈ ops, o.Good) → (W → ∀ o ∈ ops, o.Writable) →
    ClEnd W s0 s (fun t s' => COp.Holds texts ops t ∧ (s'.heap.failed = s.heap.failed → t = COp.all texts ops)) (COp.execs c ops s) := by
  induction ops with
  | nil => intro c texts s I _ _; exact Or.inl ⟨c, texts, s, rfl, Nat.le_refl _, ⟨.nil _, fun _ => rfl⟩, I⟩
  | cons o os ih =>
    intro c texts s I hg hw
    have hg' := fun o ho => hg o (List.mem_cons_of_mem _ ho)
    have hw' := fun W o ho => hw W o (List.mem_cons_of_mem _ ho)
    have key : ∀ Q : List (List Nat) → FHState → Prop, ClEnd W s0 s Q (COp.exec c o s) →
        (∀ t f s', Q t s' → COp.Holds t os f → COp.Holds texts (o :: os) f) →
        (∀ t s', Q t s' → s'.heap.failed = s.heap.failed → COp.all t os = COp.all texts (o :: os)) →
        ClEnd W s0 s (fun t s' => COp.Holds texts (o :: os) t ∧ (s'.heap.failed = s.heap.failed → t = COp.all texts (o :: os)))
          (COp.execs c (o :: os) s) := by
      intro Q h1 h2 h3
      rw [COp.execs]
      rcases h1 with ⟨c1, t1, s1, e1, m1, q1, I1⟩ | ⟨s1, e1, f1⟩
      · rw [runH_ok e1]
        rcases ih c1 t1 s1 I1 hg' hw' with ⟨c2, t2, s2, e2, m2, ⟨q2, q3⟩, I2⟩ | h3
        · refine Or.inl ⟨c2, t2, s2, e2, by omega, ⟨h2 _ _ _ q1 q2, fun hf => ?_⟩, I2⟩
          rw [q3 (by omega)]
          exact h3 t1 s1 q1 (by omega)
        · exact Or.inr h3
      · rw [runH_err e1]
        exact Or.inr ⟨s1, rfl, f1⟩
    cases o with
    | call w T x freeT =>
      refine key _ (COp.exec_call I w T x freeT (hg _ List.mem_cons_self)) ?_ ?_
      · rintro t f s' (⟨rfl, _⟩ | rfl) h
        · exact .failed h
        · exact .done h
      · rintro t s' (⟨rfl, hf⟩ | rfl) h
        · omega
        · rfl
    | file w host inp out content =>
      refine key _ (COp.exec_file I w host inp out content (hg _ List.mem_cons_self) (fun x => hw x _ List.mem_cons_self)) ?_ ?_
      · rintro t f s' rfl h
        exact .file h
      · rintro t s' rfl _
        rfl
    | release i =>
      refine key _ (COp.exec_release I i) ?_ ?_
      · rintro t f s' rfl h
        exact .release h
      · rintro t s' rfl _
        rfl

/-- **C84** every history of good calls of `bwt_string` and `bwt_file` and releases of results by a client that catches
exceptions and goes on, where memory may run out at any request: either a null pointer is dereferenced (then a request had
failed; `malloc` and `realloc` are not checked), or the history comes to its end; then the results held are those of calls of
the history that have not been released, each is the transform of its text, every call of `bwt_file` that returned had
produced the file of its input, and all blocks of the client and of the results are still there. In particular nothing is
ever released twice, however many calls failed. -/
theorem C84_history_with_failures (s : FHState) (ops : List COp) (hg : ∀ o ∈ ops, o.Good) :
    (∃ c texts s', COp.execs ⟨[], []⟩ ops s = (.ok c, s') ∧ COp.Holds [] ops texts ∧ List.Forall₂ KeptOK c.kept texts ∧
      (∀ x ∈ c.written, ∃ bytes, x.2 = some bytes ∧ FileFormat x.1 bytes) ∧
      (∀ b, s.heap.live b + resultBlocks texts b ≤ s'.heap.live b)) ∨
    (∃ s', COp.execs ⟨[], []⟩ ops s = (.error (.prog (.ub .nullDeref)), s') ∧ s.heap.failed < s'.heap.failed) := by
  rcases COp.execs_spec False s ops ⟨[], []⟩ [] s ⟨Nat.le_refl _, fun b => by simp [resultBlocks], fun h => h.elim, .nil, by simp⟩
    hg (fun h => h.elim) with ⟨c, t, s', e, _, q, I⟩ | h
  · exact Or.inl ⟨c, t, s', e, q.1, I.res, I.files, I.live⟩
  · exact Or.inr h

/-- **C84** a call fails, and memory is lost, only when a request failed (or an output file could not be opened): if all
requests of the history were satisfied and all output files could be opened, the client holds the transforms of all the texts
it has not released, and the heap at the end is the initial heap plus the two blocks of each of them. -/
theorem C84_no_failure_no_leak (s : FHState) (ops : List COp) (hg : ∀ o ∈ ops, o.Good) (hw : ∀ o ∈ ops, o.Writable)
    (hf : (COp.execs ⟨[], []⟩ ops s).2.heap.failed = s.heap.failed) :
    ∃ c s', COp.execs ⟨[], []⟩ ops s = (.ok c, s') ∧ List.Forall₂ KeptOK c.kept (COp.all [] ops) ∧
      ∀ b, s'.heap.live b = s.heap.live b + resultBlocks (COp.all [] ops) b := by
  rcases COp.execs_spec True s ops ⟨[], []⟩ [] s ⟨Nat.le_refl _, fun b => by simp [resultBlocks], fun _ _ b => by simp [resultBlocks],
    .nil, by simp⟩ hg (fun _ => hw) with ⟨c, t, s', e, _, q, I⟩ | ⟨s', e, h⟩
  · rw [e] at hf
    have := q.2 hf
    subst this
    exact ⟨c, s', e, I.res, I.clean trivial hf⟩
  · rw [e] at hf
    simp only at hf
    omega

/-- **C84** as soon as memory is available again calls succeed, whatever happened before (any state of client and heap). -/
theorem C84_recovers (c : Client) (s : FHState) (hav : ∀ k b, s.heap.reqs ≤ k → s.heap.av k b = true) (w : World) (T : Mem Nat)
    (x : List Nat) (freeT : Bool) (g : GoodCall w.junk w.sorter T x) :
    ∃ r s', COp.exec c (.call w T x freeT) s = (.ok { c with kept := c.kept ++ [(x.length, some r)] }, s') ∧
      IsBWT x r.bwt.data r.last := by
  dsimp only [COp.exec]
  rw [runH_ok (a := true) (s' := { s with heap := s.heap.got ⟨.text, T.size⟩ })
      (by unfold liftH mallocB; dsimp only; rw [if_pos (by rfl), if_pos (hav _ _ (Nat.le_refl _))])]
  simp only [if_true]
  have hto : TextOwned freeT T (s.heap.got ⟨.text, T.size⟩) := by
    intro _
    simp [Heap.got, Heap.add]
  obtain ⟨r, T', h1, e1, hr, _⟩ := C83_memory_available_again w g freeT (s.heap.got ⟨.text, T.size⟩) hto
    (fun k b hk => hav k b (Nat.le_trans (Nat.le_succ _) hk))
  have hk := C83_memory_of_the_caller_stays w g freeT (s.heap.got ⟨.text, T.size⟩) hto ⟨.text, T.size⟩
  rw [e1] at hk
  rw [runH_ok (m := tryF _) (a := some (some r, T')) (s' := { s with heap := h1 })
      (by unfold tryF liftH; simp only [e1]), runH_ok (dropText_run (s := { s with heap := h1 }) ?_)]
  · exact ⟨r, _, rfl, hr⟩
  · rintro rfl
    simp only [Bool.false_eq_true, false_and, if_false, Heap.got, Heap.add, if_true] at hk
    simp only
    omega

/-! ## Instances -/

/-- a history: two calls, a file, an attempt to release a result that may not exist, another file whose output cannot be opened -/
def someHistory (sj : BitVec 64) : List COp :=
  [.call (bananaWorld sj) (cString banana) banana true, .call (bananaWorld sj) (cString banana) banana false,
    .file niceWorld niceHost "in" "out" banana, .release 0, .file niceWorld { niceHost with mayWrite := fun _ => false } "in" "out" banana]

theorem someHistory_good (sj : BitVec 64) : ∀ o ∈ someHistory sj, o.Good := by
  intro o ho
  simp only [someHistory, List.mem_cons, List.not_mem_nil, or_false] at ho
  rcases ho with rfl | rfl | rfl | rfl | rfl
  · exact banana_good
  · exact banana_good
  · exact ⟨rfl, rfl, by decide, by decide, by decide, by decide, insSort_ok, lengthsSafe_short _ (by decide), by decide, nice_takes⟩
  · trivial
  · exact ⟨rfl, rfl, by decide, by decide, by decide, by decide, insSort_ok, lengthsSafe_short _ (by decide), by decide, nice_takes⟩

/-- for every schedule -/
example (sj : BitVec 64) (av : Nat → Blk → Bool) :
    (∃ c texts s', COp.execs ⟨[], []⟩ (someHistory sj) { niceState with heap := { niceState.heap with av := av } } = (.ok c, s') ∧
      COp.Holds [] (someHistory sj) texts ∧ List.Forall₂ KeptOK c.kept texts) ∨
    (∃ s', COp.execs ⟨[], []⟩ (someHistory sj) { niceState with heap := { niceState.heap with av := av } } =
      (.error (.prog (.ub .nullDeref)), s')) := by
  rcases C84_history_with_failures { niceState with heap := { niceState.heap with av := av } } (someHistory sj) (someHistory_good sj) with
    ⟨c, t, s', h1, h2, h3, _⟩ | ⟨s', h, _⟩
  · exact Or.inl ⟨c, t, s', h1, h2, h3⟩
  · exact Or.inr ⟨s', h⟩

/-- the very first call fails (its second request is refused: the container), the client goes on and gets the second result;
nothing is released twice and the client holds one result -/
example (sj : BitVec 64) : ∃ r s1 s2, COp.exec ⟨[], []⟩ (.call (bananaWorld sj) (cString banana) banana false)
      { niceState with heap := { bananaHeap with reqs := 0, av := fun k _ => decide (k ≠ 1) } } = (.ok ⟨[], []⟩, s1) ∧
    COp.exec ⟨[], []⟩ (.call (bananaWorld sj) (cString banana) banana false) s1 = (.ok ⟨[(6, some r)], []⟩, s2) ∧
    IsBWT banana r.bwt.data r.last := by
  have e : COp.exec ⟨[], []⟩ (.call (bananaWorld sj) (cString banana) banana false)
      { niceState with heap := { bananaHeap with reqs := 0, av := fun k _ => decide (k ≠ 1) } } = (.ok ⟨[], []⟩,
        { niceState with heap := (({ bananaHeap with reqs := 0, av := fun k _ => decide (k ≠ 1) } : Heap).got
          ⟨.text, 7⟩).refused.sub ⟨.text, 7⟩ }) := by
    rfl
  obtain ⟨r, s2, h1, h2⟩ := C84_recovers ⟨[], []⟩ { niceState with heap :=
      (({ bananaHeap with reqs := 0, av := fun k _ => decide (k ≠ 1) } : Heap).got ⟨.text, 7⟩).refused.sub ⟨.text, 7⟩ } (fun k b hk => by
    have hk : 2 ≤ k := hk
    show decide (k ≠ 1) = true
    exact decide_eq_true (by omega)) (bananaWorld sj) (cString banana) banana false banana_good
  exact ⟨r, _, s2, e, h1, h2⟩

example (sj : BitVec 64) (h : Heap) (b : Blk) :
    h.live b ≤ (bwtStringH (bananaWorld sj) (some (cString banana)) banana.length false h).2.live b := by
  have := C83_memory_of_the_caller_stays (bananaWorld sj) (T := cString banana) (s := banana) banana_good false h (fun c => by cases c) b
  simpa using this

example (b : Blk) : niceState.heap.live b ≤ (bwtFileH niceWorld niceHost "in" "out" niceState).2.heap.live b :=
  C83_file_call (niceH_call niceState rfl) nice_takes b

end Flbwt
