import Verif.Mirror
import Verif.PropsFileHeap
import Verif.Peak

/-!
# C85: memory pressure never changes what a call computes

Without any assumption on the arguments: whatever the text, the length, the byte after the text and the files are.
-/

namespace Flbwt

/-! ## C85 -/

/-- C85: whatever the arguments: a call of `bwt_string` that returns has the result of the call with unlimited memory, and
no request was refused to it; a call that ends by an exception or a fault does what the call with unlimited memory does, or
dereferences a null pointer after a refused request; `std::bad_alloc` is only thrown after a refused request. -/
theorem C85_result_independent_of_memory (w : World) (T : Option (Mem Nat)) (n : Nat) (freeT : Bool) (h h' : Heap) :
    (∀ r, bwtStringH w T n freeT h = (.ok r, h') → bwtString w T n freeT = .ok r ∧ h'.failed = h.failed) ∧
    (∀ e, bwtStringH w T n freeT h = (.error (.prog e), h') →
      bwtString w T n freeT = .error e ∨ (e = .ub .nullDeref ∧ h.failed < h'.failed)) ∧
    (bwtStringH w T n freeT h = (.error .badAlloc, h') → h.failed < h'.failed) := by
  have := bwtStringH_mirrors w T n freeT h
  refine ⟨fun r e => ?_, fun x e => ?_, fun e => ?_⟩
  · rw [e] at this; exact this
  · rw [e] at this; exact this.2
  · rw [e] at this; exact this

/-- C85: two calls with the same arguments, in any two states of the heap and under any two schedules of refused requests:
if both return they return the same. -/
theorem C85_two_heaps (w : World) (T : Option (Mem Nat)) (n : Nat) (freeT : Bool) {h1 h1' h2 h2' : Heap}
    {r1 r2 : Option BwtResult × Option (Mem Nat)} (e1 : bwtStringH w T n freeT h1 = (.ok r1, h1'))
    (e2 : bwtStringH w T n freeT h2 = (.ok r2, h2')) : r1 = r2 := by
  have a := ((C85_result_independent_of_memory w T n freeT h1 h1').1 r1 e1).1
  have b := ((C85_result_independent_of_memory w T n freeT h2 h2').1 r2 e2).1
  rw [a] at b
  cases b
  rfl

/-- C85: with unlimited memory the program with explicit requests and the program without them have the same outcome, unless
it releases a block that is not live (the caller handed over a text that is not on the heap). -/
theorem C85_unlimited (w : World) (T : Option (Mem Nat)) (n : Nat) (freeT : Bool) (h : Heap) (hav : ∀ k b, h.av k b = true) :
    (∃ r, (bwtStringH w T n freeT h).1 = .ok r ∧ bwtString w T n freeT = .ok r) ∨
    (∃ e, (bwtStringH w T n freeT h).1 = .error (.prog e) ∧ bwtString w T n freeT = .error e) ∨
    (bwtStringH w T n freeT h).1 = .error .badFree := by
  have hf : ¬ h.failed < (bwtStringH w T n freeT h).2.failed := by
    intro c
    obtain ⟨k, b, _, _, x⟩ := ((bwtStringH_framed w T n freeT).asks h).why c
    rw [hav] at x
    cases x
  have := bwtStringH_mirrors w T n freeT h
  rcases hr : bwtStringH w T n freeT h with ⟨r, h'⟩
  rw [hr] at this hf
  cases r with
  | ok a => exact Or.inl ⟨a, rfl, this.1⟩
  | error e =>
    cases e with
    | prog e =>
      rcases this.2 with c | c
      · exact Or.inr (Or.inl ⟨e, rfl, c⟩)
      · exact absurd c.2 hf
    | badAlloc => exact absurd this hf
    | badFree => exact Or.inr (Or.inr rfl)

/-- "banana", every request satisfied -/
example (sj : BitVec 64) : ∃ r h', bwtStringH (bananaWorld sj) (some (cString banana)) banana.length true bananaHeap = (.ok r, h') ∧
    bwtString (bananaWorld sj) (some (cString banana)) banana.length true = .ok r := by
  obtain ⟨r, T', h', e, _⟩ := C47_no_leak (bananaWorld sj) (T := cString banana) (s := banana) banana_good true bananaHeap
    bananaHeap_owned (fun _ _ => rfl)
  exact ⟨_, h', e, ((C85_result_independent_of_memory _ _ _ _ _ _).1 _ e).1⟩

/-- two bytes: the null dereference of C04 has nothing to do with memory -/
example (w : World) (T : Mem Nat) (h h' : Heap) (r : Option BwtResult × Option (Mem Nat)) :
    bwtStringH w (some T) 2 false h ≠ (.ok r, h') := by
  intro c
  have := ((C85_result_independent_of_memory w (some T) 2 false h h').1 r c).1
  rw [C04_short_input_null_deref w T 2 false (by omega) (by omega)] at this
  cases this

/-! ### Files -/

/-- `x` (with a heap) does what `y` (without) does unless a request is refused; `y` needs `a` blocks and leaves `b`.
Used in proofs only. -/
def FReflects {α : Type} (b k : Nat) (s : FHState) (r : Except HErr α × FHState) (t : M α × FState) : Prop :=
  match r with
  | (.ok v, s') => t = (.ok v, ⟨s'.files, s'.streams, b + k⟩) ∧ s'.heap.failed = s.heap.failed
  | (.error (.prog e), s') => ((∃ k', t = (.error e, ⟨s'.files, s'.streams, k'⟩)) ∨
      (s.heap.failed < s'.heap.failed ∧ (e = .ub .nullDeref ∨ e = .throw .runtimeError)))
  | (.error .badAlloc, s') => s.heap.failed < s'.heap.failed
  | (.error .badFree, _) => True

theorem FReflects.from {α : Type} {b k : Nat} {s s2 : FHState} {r : Except HErr α × FHState} {t : M α × FState}
    (hs : s.heap.failed = s2.heap.failed) (x : FReflects b k s r t) : FReflects b k s2 r t := by
  rcases r with ⟨q, s'⟩
  cases q with
  | ok v => exact ⟨x.1, x.2.trans hs⟩
  | error e =>
    cases e with
    | prog e => exact x.imp id fun t => ⟨hs ▸ t.1, t.2⟩
    | badAlloc =>
      have x : s.heap.failed < s'.heap.failed := x
      show s2.heap.failed < s'.heap.failed
      omega
    | badFree => trivial

/-- Used in proofs only. -/
def FMirrors {α : Type} (a b : Nat) (x : FH α) (y : FileM α) : Prop :=
  ∀ s k, FReflects b k s (x s) (y ⟨s.files, s.streams, a + k⟩)

namespace FMirrors
variable {α β : Type}

theorem bind {a b c : Nat} {x : FH α} {y : FileM α} {f : α → FH β} {g : α → FileM β} (hx : FMirrors a b x y)
    (hf : ∀ v, FMirrors b c (f v) (g v)) : FMirrors a c (x >>= f) (y >>= g) := by
  intro s k
  have h1 := hx s k
  rcases hr : x s with ⟨r, s'⟩
  rw [hr] at h1
  cases r with
  | ok v =>
    rw [runH_ok hr]
    obtain ⟨e1, e2⟩ := h1
    rw [run_ok e1]
    have h2 := hf v s' k
    rcases hq : f v s' with ⟨q, s''⟩
    rw [hq] at h2
    cases q with
    | ok b => exact ⟨h2.1, h2.2.trans e2⟩
    | error e =>
      cases e with
      | prog e => exact h2.imp id fun t => ⟨e2 ▸ t.1, t.2⟩
      | badAlloc =>
        have h2 : s'.heap.failed < s''.heap.failed := h2
        show s.heap.failed < s''.heap.failed
        omega
      | badFree => trivial
  | error e =>
    rw [runH_err hr]
    cases e with
    | prog e =>
      refine h1.imp (fun ⟨k', t⟩ => ⟨k', ?_⟩) id
      rw [run_err t]
    | badAlloc => exact h1
    | badFree => trivial

theorem fail {a b : Nat} (e : Err) : FMirrors a b (FH.fail e : FH α) (FileM.fail e) := fun _ _ => Or.inl ⟨_, rfl⟩

theorem lift {a : Nat} (m : M α) : FMirrors a a (FH.lift m) (FileM.lift m) := by
  intro s k
  cases m with
  | ok v => exact ⟨rfl, rfl⟩
  | error e => exact Or.inl ⟨_, rfl⟩

theorem close {a : Nat} : FMirrors a a FH.close FileM.close := by
  intro s k
  unfold FH.close FileM.close
  by_cases h : 1 ≤ s.streams
  · rw [if_pos h, if_pos h]; exact ⟨rfl, rfl⟩
  · rw [if_neg h]; trivial

theorem openR {a : Nat} (h : Host) (name : String) : FMirrors a a (FH.openR h name) (FileM.openR h name) := by
  intro s k
  unfold FH.openR FileM.openR
  dsimp only
  cases s.files name with
  | none => exact ⟨rfl, rfl⟩
  | some c =>
    dsimp only
    by_cases hm : h.mayRead name = true
    · rw [if_pos hm, if_pos hm]; exact ⟨rfl, rfl⟩
    · rw [if_neg hm, if_neg hm]; exact ⟨rfl, rfl⟩

theorem openW {a : Nat} (h : Host) (name : String) : FMirrors a a (FH.openW h name) (FileM.openW h name) := by
  intro s k
  unfold FH.openW FileM.openW
  by_cases hm : h.mayWrite name = true
  · rw [if_pos hm, if_pos hm]; exact ⟨rfl, rfl⟩
  · rw [if_neg hm, if_neg hm]; exact ⟨rfl, rfl⟩

theorem write {a : Nat} (h : Host) (name : String) (bytes : List Nat) : FMirrors a a (FH.write h name bytes) (FileM.write h name bytes) := by
  intro s k
  refine ⟨?_, rfl⟩
  unfold FileM.write
  simp only [Prod.mk.injEq, true_and, FState.mk.injEq, and_true]
  funext f
  simp only [FH.setFile]
  have : ∀ (l : List Nat) (i : Nat), l.take (min i l.length) = l.take i := by
    intro l i
    by_cases hi : i ≤ l.length
    · rw [Nat.min_eq_left hi]
    · rw [Nat.min_eq_right (by omega), List.take_length, List.take_of_length_le (by omega)]
  rw [this]

/-- a request or a release -/
theorem skip {a b : Nat} {x : H Unit} {f : Unit → FH β} {y : FileM β} (hx : Mirrors x (.ok ())) (hf : FMirrors a b (f ()) y) :
    FMirrors a b (FH.liftH x >>= f) y := by
  intro s k
  have h1 := hx s.heap
  rcases hr : x s.heap with ⟨r, h'⟩
  rw [hr] at h1
  have hl : FH.liftH x s = (r, { s with heap := h' }) := by unfold FH.liftH; rw [hr]
  cases r with
  | ok v =>
    rw [runH_ok hl]
    have h2 := hf { s with heap := h' } k
    have e2 : h'.failed = s.heap.failed := h1.2
    rcases hq : f v { s with heap := h' } with ⟨q, s''⟩
    rw [hq] at h2
    cases q with
    | ok b => exact ⟨h2.1, h2.2.trans e2⟩
    | error e =>
      cases e with
      | prog e =>
        refine h2.imp id fun t => ⟨?_, t.2⟩
        have : h'.failed < s''.heap.failed := t.1
        omega
      | badAlloc =>
        have h2 : h'.failed < s''.heap.failed := h2
        show s.heap.failed < s''.heap.failed
        omega
      | badFree => trivial
  | error e =>
    rw [runH_err hl]
    cases e with
    | prog e =>
      rcases h1.2 with c | c
      · cases c
      · exact Or.inr ⟨c.2, Or.inl c.1⟩
    | badAlloc => exact h1
    | badFree => trivial

theorem ite {a b : Nat} {c : Prop} [Decidable c] {x y : FH α} {m n : FileM α} (hx : c → FMirrors a b x m) (hy : ¬ c → FMirrors a b y n) :
    FMirrors a b (if c then x else y) (if c then m else n) := by
  by_cases h : c
  · rw [if_pos h, if_pos h]; exact hx h
  · rw [if_neg h, if_neg h]; exact hy h

end FMirrors

theorem writeRowsH_mirrors {a : Nat} (h : Host) (name : String) (n : Nat) (r : BwtResult) :
    FMirrors a a (writeRowsH h name n r) (writeRows h name n r) :=
  FMirrors.ite (fun _ => FMirrors.bind (FMirrors.lift _) (fun _ => FMirrors.write _ _ _))
    (fun _ => FMirrors.ite (fun _ => FMirrors.bind (FMirrors.lift _) (fun _ => FMirrors.write _ _ _))
      (fun _ => FMirrors.bind (FMirrors.lift _) (fun _ => FMirrors.bind (FMirrors.write _ _ _) (fun _ =>
        FMirrors.bind (FMirrors.lift _) (fun _ => FMirrors.write _ _ _)))))

theorem releaseResult_mirrors (n : Nat) : FMirrors 2 0 (FH.liftH (releaseResultH n)) (FileM.dealloc 2) := by
  have h : Mirrors (releaseResultH n) (.ok ()) := Mirrors.skip (Mirrors.freeB _ _) (Mirrors.freeB _ _)
  intro s k
  have h1 := h s.heap
  unfold FH.liftH FileM.dealloc
  rcases hr : releaseResultH n s.heap with ⟨r, h'⟩
  rw [hr] at h1
  cases r with
  | ok v =>
    rw [if_pos (show 2 ≤ 2 + k by omega)]
    refine ⟨?_, h1.2⟩
    simp only [Prod.mk.injEq, FState.mk.injEq, true_and]
    omega
  | error e =>
    cases e with
    | prog e =>
      rcases h1.2 with c | c
      · cases c
      · exact Or.inr ⟨c.2, Or.inl c.1⟩
    | badAlloc => exact h1
    | badFree => trivial

theorem writeResultH_mirrors (h : Host) (out : String) (n : Nat) (b : Option BwtResult) :
    FMirrors (if b.isSome then 2 else 0) 0 (writeResultH h out n b) (writeResult h out n b) := by
  refine FMirrors.bind (FMirrors.openW _ _) (fun o => FMirrors.ite (fun _ => ?_) (fun _ => FMirrors.fail _))
  cases b with
  | none => exact FMirrors.close
  | some r =>
    refine FMirrors.skip (Mirrors.newB _ _) (FMirrors.bind (FMirrors.write _ _ _) (fun _ => FMirrors.skip (Mirrors.freeB _ _)
      (FMirrors.bind (writeRowsH_mirrors _ _ _ _) (fun _ => FMirrors.bind FMirrors.close (fun _ => releaseResult_mirrors n)))))

/-- C85: whatever the files and the arguments: `bwt_file`, when it returns, has done what it does with unlimited memory, and
no request was refused; when it ends by an exception or a fault, so does the call with unlimited memory, with the same
files, or a request was refused and it is a null dereference or `std::runtime_error`; `std::bad_alloc` is only thrown after a
refused request. -/
theorem C85_file_independent_of_memory (w : World) (h : Host) (inp out : String) (s s' : FHState) (k : Nat) :
    (bwtFileH w h inp out s = (.ok (), s') →
      bwtFile w { h with mallocOk := fun _ => true } inp out ⟨s.files, s.streams, k⟩ = (.ok (), ⟨s'.files, s'.streams, k⟩) ∧
      s'.heap.failed = s.heap.failed) ∧
    (∀ e, bwtFileH w h inp out s = (.error (.prog e), s') →
      (∃ k', bwtFile w { h with mallocOk := fun _ => true } inp out ⟨s.files, s.streams, k⟩ = (.error e, ⟨s'.files, s'.streams, k'⟩)) ∨
      (s.heap.failed < s'.heap.failed ∧ (e = .ub .nullDeref ∨ e = .throw .runtimeError))) ∧
    (bwtFileH w h inp out s = (.error .badAlloc, s') → s.heap.failed < s'.heap.failed) := by
  have key : FMirrors 0 0 (bwtFileH w h inp out) (bwtFile w { h with mallocOk := fun _ => true } inp out) := by
    refine FMirrors.bind (FMirrors.openR h inp) (fun c => ?_)
    cases c with
    | none => exact FMirrors.fail _
    | some content =>
      simp only
      generalize (h.tell content % 2 ^ 64).toNat = n
      rw [if_pos trivial]
      intro s k
      have hrun : ∀ v h', mallocB ⟨.text, (n + 1) % 2 ^ 64⟩ s.heap = (.ok v, h') →
          FH.liftH (mallocB ⟨.text, (n + 1) % 2 ^ 64⟩) s = (.ok v, { s with heap := h' }) := by
        intro v h' e
        unfold FH.liftH
        rw [e]
      by_cases hav : s.heap.av s.heap.reqs ⟨.text, (n + 1) % 2 ^ 64⟩ = true
      · rw [runH_ok (hrun true (s.heap.got ⟨.text, (n + 1) % 2 ^ 64⟩) (by unfold mallocB; rw [if_pos (show (⟨.text, (n + 1) % 2 ^ 64⟩ : Blk).role.fam = .c from rfl), if_pos hav])), if_pos rfl]
        have e0 : (FileM.alloc 1 ⟨s.files, s.streams, 0 + k⟩ : M Unit × FState) = (.ok (), ⟨s.files, s.streams, 1 + k⟩) := by
          unfold FileM.alloc
          rw [Nat.zero_add, Nat.add_comm]
        rw [run_ok e0]
        have rest : FMirrors 1 0
            (FH.lift (freadBlock h ((n + 1) % 2 ^ 64) (delivered h content n)) >>= fun T =>
              if (delivered h content n).length = 0 then FH.fail (.throw .runtimeError)
              else FH.close >>= fun _ => FH.lift (T.wr n 0) >>= fun T => FH.liftH (bwtStringH w (some T) n true) >>= fun r =>
                writeResultH h out n r.1)
            (FileM.lift (freadBlock h ((n + 1) % 2 ^ 64) (delivered h content n)) >>= fun T =>
              if (delivered h content n).length = 0 then FileM.fail (.throw .runtimeError)
              else FileM.close >>= fun _ => FileM.lift (transform w T n) >>= fun b => FileM.dealloc 1 >>= fun _ =>
                if b.isSome then FileM.alloc 2 >>= fun _ => writeResult h out n b
                else FileM.alloc 0 >>= fun _ => writeResult h out n b) := by
          refine FMirrors.bind (FMirrors.lift _) (fun T => FMirrors.ite (fun _ => FMirrors.fail _) (fun _ =>
            FMirrors.bind FMirrors.close (fun _ => ?_)))
          intro s k
          unfold transform
          cases hT : T.wr n 0 with
          | error e =>
            rw [runH_err (e := .prog e) (s' := s) (by rfl)]
            exact Or.inl ⟨_, rfl⟩
          | ok T2 =>
            rw [runH_ok (a := T2) (s' := s) (by rfl)]
            have h1 := bwtStringH_mirrors w (some T2) n true s.heap
            rcases hr : bwtStringH w (some T2) n true s.heap with ⟨r, h'⟩
            rw [hr] at h1
            have hl : FH.liftH (bwtStringH w (some T2) n true) s = (r, { s with heap := h' }) := by unfold FH.liftH; rw [hr]
            rw [HashTable.ok_bind]
            cases r with
            | ok v =>
              rw [runH_ok hl]
              obtain ⟨e1, e2⟩ := h1
              rw [e1, HashTable.ok_bind]
              rw [run_ok (a := v.1) (s' := ⟨s.files, s.streams, 1 + k⟩) (by rfl),
                run_ok (a := ()) (s' := ⟨s.files, s.streams, k⟩) (by
                  unfold FileM.dealloc
                  rw [if_pos (show 1 ≤ 1 + k by omega), Nat.add_sub_cancel_left])]
              have e3 : (if v.1.isSome then FileM.alloc 2 >>= fun _ => writeResult h out n v.1
                  else FileM.alloc 0 >>= fun _ => writeResult h out n v.1) ⟨s.files, s.streams, k⟩ =
                  writeResult h out n v.1 ⟨s.files, s.streams, (if v.1.isSome then 2 else 0) + k⟩ := by
                cases v.1.isSome with
                | true => simp only [if_true, Nat.add_comm]; rfl
                | false => simp only [Bool.false_eq_true, if_false, Nat.zero_add]; rfl
              rw [e3]
              have h2 := writeResultH_mirrors h out n v.1 { s with heap := h' } k
              rcases hq : writeResultH h out n v.1 { s with heap := h' } with ⟨q, s''⟩
              rw [hq] at h2
              cases q with
              | ok b => exact ⟨h2.1, h2.2.trans e2⟩
              | error e =>
                cases e with
                | prog e =>
                  refine h2.imp id fun t => ⟨?_, t.2⟩
                  have : h'.failed < s''.heap.failed := t.1
                  omega
                | badAlloc =>
                  have h2 : h'.failed < s''.heap.failed := h2
                  show s.heap.failed < s''.heap.failed
                  omega
                | badFree => trivial
            | error e =>
              rw [runH_err hl]
              cases e with
              | prog e =>
                rcases h1.2 with c | c
                · refine Or.inl ⟨1 + k, ?_⟩
                  rw [c]
                  rfl
                · exact Or.inr ⟨c.2, Or.inl c.1⟩
              | badAlloc => exact h1
              | badFree => trivial
        refine FReflects.from (s := { s with heap := s.heap.got ⟨.text, (n + 1) % 2 ^ 64⟩ }) (by rfl) ?_
        have e1 : freadBlock { h with mallocOk := fun _ => true } = freadBlock h := rfl
        have e2 : delivered { h with mallocOk := fun _ => true } = delivered h := rfl
        have e3 : writeResult { h with mallocOk := fun _ => true } = writeResult h := by
          funext o n b
          cases b <;> rfl
        rw [e1, e2, e3]
        exact rest { s with heap := s.heap.got ⟨.text, (n + 1) % 2 ^ 64⟩ } k
      · rw [runH_ok (hrun false s.heap.refused (by unfold mallocB; rw [if_pos (show (⟨.text, (n + 1) % 2 ^ 64⟩ : Blk).role.fam = .c from rfl), if_neg hav])), if_neg (by simp)]
        show FReflects 0 k s ((FH.close >>= fun _ => FH.fail (.throw .runtimeError)) { s with heap := s.heap.refused }) _
        by_cases hc : 1 ≤ s.streams
        · rw [runH_ok (a := ()) (s' := { s with heap := s.heap.refused, streams := s.streams - 1 }) (by
            unfold FH.close; rw [if_pos hc])]
          exact Or.inr ⟨Nat.lt_succ_self _, Or.inr rfl⟩
        · rw [runH_err (e := .badFree) (s' := { s with heap := s.heap.refused }) (by unfold FH.close; rw [if_neg hc])]
          trivial
  have := key s k
  rw [Nat.zero_add] at this
  refine ⟨fun e => ?_, fun x e => ?_, fun e => ?_⟩
  · rw [e] at this
    obtain ⟨a, b⟩ := this
    rw [Nat.zero_add] at a
    exact ⟨a, b⟩
  · rw [e] at this; exact this
  · rw [e] at this; exact this

/-- a file that cannot be read: no state of memory makes the call return -/
example (w : World) (h : Host) (s s' : FHState) (hn : s.files "in" = none) : bwtFileH w h "in" "out" s ≠ (.ok (), s') := by
  intro c
  have := ((C85_file_independent_of_memory w h "in" "out" s s' 0).1 c).1
  unfold bwtFile at this
  rw [run_ok (a := none) (s' := ⟨s.files, s.streams, 0⟩) (by unfold FileM.openR; simp only [hn])] at this
  cases congrArg Prod.fst this

/-- "banana": the bytes written are those the program without memory writes -/
example : ∃ s', bwtFileH niceWorld niceHost "in" "out" niceState = (.ok (), s') ∧
    bwtFile niceWorld { niceHost with mallocOk := fun _ => true } "in" "out" ⟨niceState.files, niceState.streams, 0⟩ =
      (.ok (), ⟨s'.files, s'.streams, 0⟩) := by
  obtain ⟨_, s', e, _⟩ := C57_unlimited (out := "out") (niceH_call niceState rfl) rfl nice_takes (fun _ _ => rfl)
  exact ⟨s', e, ((C85_file_independent_of_memory _ _ _ _ _ _ 0).1 e).1⟩

end Flbwt
