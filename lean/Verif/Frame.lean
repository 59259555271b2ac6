import Verif.HeapModel

/-!
# What a computation can do to memory it does not own

`Framed x`: unless `x` releases a block that is not live, it does the same on a heap with more live blocks, and these
blocks stay; and it depends on the schedule only from the next request on. Shown for every function of `HeapModel.lean`, for all arguments.
-/

namespace Flbwt

open SaStore

/-- the heap with `F b` more live blocks of every description `b`. Used in proofs only. -/
def Heap.extra (h : Heap) (F : Blk → Nat) : Heap := { h with live := fun b => h.live b + F b }

/-- more live blocks change nothing and stay. Used in proofs only. -/
def Unaware {α : Type _} (x : H α) : Prop :=
  ∀ (h : Heap) (F : Blk → Nat), (x h).1 ≠ .error .badFree → x (h.extra F) = ((x h).1, (x h).2.extra F)

/-- How the counts develop: the schedule stays, requests are numbered from `h.reqs` on, a request was refused only if the
schedule refuses one of these numbers, and the peak does not fall and is at least the number of
bytes in use unless that has not grown. Used in proofs only. -/
structure Asks (h h' : Heap) : Prop where
  av : h'.av = h.av
  reqs : h.reqs ≤ h'.reqs
  failed : h.failed ≤ h'.failed
  why : h.failed < h'.failed → ∃ k b, h.reqs ≤ k ∧ k < h'.reqs ∧ h.av k b = false
  peak : h.peak ≤ h'.peak
  total : h'.total ≤ max h.total h'.peak

theorem Asks.refl (h : Heap) : Asks h h :=
  ⟨rfl, Nat.le_refl _, Nat.le_refl _, fun c => absurd c (Nat.lt_irrefl _), Nat.le_refl _, Nat.le_max_left _ _⟩

theorem Asks.trans {h1 h2 h3 : Heap} (a : Asks h1 h2) (b : Asks h2 h3) : Asks h1 h3 := by
  have r1 := a.reqs
  have r2 := b.reqs
  refine ⟨b.av.trans a.av, by omega, Nat.le_trans a.failed b.failed, fun hlt => ?_, Nat.le_trans a.peak b.peak, ?_⟩
  rotate_left
  · have t1 := a.total
    have t2 := b.total
    have p2 := b.peak
    omega
  by_cases c : h1.failed < h2.failed
  · obtain ⟨k, x, k1, k2, k3⟩ := a.why c
    exact ⟨k, x, k1, by omega, k3⟩
  · obtain ⟨k, x, k1, k2, k3⟩ := b.why (by have := a.failed; omega)
    exact ⟨k, x, by omega, k2, by rw [← a.av]; exact k3⟩

theorem Asks.got (h : Heap) (b : Blk) : Asks h (h.got b) :=
  ⟨rfl, Nat.le_succ _, Nat.le_refl _, fun c => absurd c (Nat.lt_irrefl _), Nat.le_max_left _ _,
    Nat.le_trans (Nat.le_max_right h.peak _) (Nat.le_max_right _ _)⟩

theorem Asks.refused {h : Heap} {b : Blk} (c : ¬ h.av h.reqs b = true) : Asks h h.refused :=
  ⟨rfl, Nat.le_succ _, Nat.le_succ _, fun _ => ⟨h.reqs, b, Nat.le_refl _, Nat.lt_succ_self _, by simpa using c⟩, Nat.le_refl _, Nat.le_max_left _ _⟩

theorem Asks.sub (h : Heap) (b : Blk) : Asks h (h.sub b) :=
  ⟨rfl, Nat.le_refl _, Nat.le_refl _, fun c => absurd c (Nat.lt_irrefl _), Nat.le_refl _,
    Nat.le_trans (Nat.sub_le _ _) (Nat.le_max_left _ _)⟩

/-- the heap with a higher peak in the past. Used in proofs only. -/
def Heap.high (h : Heap) (p : Nat) : Heap := { h with peak := max h.peak p }

/-- all three; `blind`: what happens does not depend on the peak of the past. Used in proofs only. -/
structure Framed {α : Type _} (x : H α) : Prop where
  frame : Unaware x
  asks : ∀ h, Asks h (x h).2
  blind : ∀ (h : Heap) (p : Nat), x (h.high p) = ((x h).1, (x h).2.high p)

namespace Framed
variable {α β σ : Type _}

theorem pure (a : α) : Framed (Pure.pure a : H α) := ⟨fun _ _ _ => rfl, fun h => Asks.refl h, fun _ _ => rfl⟩

theorem lift (m : M α) : Framed (H.lift m) := by
  refine ⟨?_, ?_, ?_⟩
  · intro h F _
    cases m <;> rfl
  · intro h
    cases m <;> exact Asks.refl h
  · intro h p
    cases m <;> rfl

theorem bind {x : H α} {f : α → H β} (hx : Framed x) (hf : ∀ a, Framed (f a)) : Framed (x >>= f) := by
  refine ⟨?_, ?_, ?_⟩
  · intro h F hne
    rw [H.bind_def] at hne ⊢
    rw [H.bind_def]
    have h1 := hx.frame h F
    rcases hr : x h with ⟨r, h'⟩
    rw [hr] at hne h1
    cases r with
    | ok a =>
      rw [h1 (by simp)]
      exact (hf a).frame h' F hne
    | error e =>
      simp only at hne
      rw [h1 (by simpa using hne)]
  · intro h
    rw [H.bind_def]
    have h1 := hx.asks h
    rcases hr : x h with ⟨r, h'⟩
    rw [hr] at h1
    cases r with
    | ok a => exact h1.trans ((hf a).asks h')
    | error e => exact h1
  · intro h p
    rw [H.bind_def, H.bind_def, hx.blind h p]
    rcases x h with ⟨r, h'⟩
    cases r with
    | ok a => exact (hf a).blind h' p
    | error e => rfl

theorem got_extra (h : Heap) (F : Blk → Nat) (b : Blk) : (h.extra F).got b = (h.got b).extra F := by
  simp only [Heap.extra, Heap.got, Heap.add, Heap.mk.injEq, and_true, true_and]
  funext x
  split <;> omega

theorem got_high (h : Heap) (p : Nat) (b : Blk) : (h.high p).got b = (h.got b).high p := by
  simp only [Heap.high, Heap.got, Heap.add, Heap.mk.injEq, true_and]
  omega

theorem newB (f : Fam) (b : Blk) : Framed (newB f b) := by
  refine ⟨?_, ?_, ?_⟩
  · intro h F hne
    unfold Flbwt.newB
    have e : (h.extra F).av (h.extra F).reqs b = h.av h.reqs b := rfl
    rw [e, got_extra]
    by_cases hf : b.role.fam = f
    · rw [if_pos hf, if_pos hf]
      by_cases hav : h.av h.reqs b = true
      · rw [if_pos hav, if_pos hav]
      · rw [if_neg hav, if_neg hav]
        rfl
    · rw [if_neg hf, if_neg hf]
  · intro h
    unfold Flbwt.newB
    by_cases hf : b.role.fam = f
    · rw [if_pos hf]
      by_cases hav : h.av h.reqs b = true
      · rw [if_pos hav]; exact .got h b
      · rw [if_neg hav]; exact .refused hav
    · rw [if_neg hf]; exact .refl h
  · intro h p
    unfold Flbwt.newB
    have e : (h.high p).av (h.high p).reqs b = h.av h.reqs b := rfl
    rw [e, got_high]
    split
    · split <;> rfl
    · rfl

theorem mallocB (b : Blk) : Framed (mallocB b) := by
  refine ⟨?_, ?_, ?_⟩
  · intro h F hne
    unfold Flbwt.mallocB
    have e : (h.extra F).av (h.extra F).reqs b = h.av h.reqs b := rfl
    rw [e, got_extra]
    by_cases hf : b.role.fam = .c
    · rw [if_pos hf, if_pos hf]
      by_cases hav : h.av h.reqs b = true
      · rw [if_pos hav, if_pos hav]
      · rw [if_neg hav, if_neg hav]
        rfl
    · rw [if_neg hf, if_neg hf]
  · intro h
    unfold Flbwt.mallocB
    by_cases hf : b.role.fam = .c
    · rw [if_pos hf]
      by_cases hav : h.av h.reqs b = true
      · rw [if_pos hav]; exact .got h b
      · rw [if_neg hav]; exact .refused hav
    · rw [if_neg hf]; exact .refl h
  · intro h p
    unfold Flbwt.mallocB
    have e : (h.high p).av (h.high p).reqs b = h.av h.reqs b := rfl
    rw [e, got_high]
    split
    · split <;> rfl
    · rfl

theorem nonNull (p : Bool) : Framed (nonNull p) := by
  refine ⟨?_, ?_, ?_⟩
  · intro h F _
    cases p <;> rfl
  · intro h
    cases p <;> exact .refl h
  · intro h q
    cases p <;> rfl

theorem freeB (f : Fam) (b : Blk) : Framed (freeB f b) := by
  refine ⟨?_, ?_, ?_⟩
  · intro h F hne
    unfold Flbwt.freeB at hne ⊢
    by_cases hf : b.role.fam = f
    · rw [if_pos hf] at hne
      rw [if_pos hf, if_pos hf]
      by_cases hl : 1 ≤ h.live b
      · rw [if_pos hl, if_pos (show 1 ≤ (h.extra F).live b from Nat.le_trans hl (Nat.le_add_right _ _))]
        simp only [Heap.extra, Heap.sub, Prod.mk.injEq, true_and, Heap.mk.injEq, and_true]
        funext x
        split
        · rename_i hx; subst hx; omega
        · rfl
      · rw [if_neg hl] at hne
        exact absurd rfl hne
    · rw [if_neg hf] at hne
      exact absurd rfl hne
  · intro h
    unfold Flbwt.freeB
    by_cases hf : b.role.fam = f
    · rw [if_pos hf]
      by_cases hl : 1 ≤ h.live b
      · rw [if_pos hl]; exact .sub h b
      · rw [if_neg hl]; exact .refl h
    · rw [if_neg hf]; exact .refl h
  · intro h p
    unfold Flbwt.freeB
    have e : (h.high p).live b = h.live b := rfl
    rw [e]
    split
    · split <;> rfl
    · rfl

theorem reallocB (old new : Nat) : Framed (reallocB old new) := by
  refine ⟨?_, ?_, ?_⟩
  · intro h F hne
    unfold Flbwt.reallocB at hne ⊢
    have e : (h.extra F).av (h.extra F).reqs ⟨.buf, new⟩ = h.av h.reqs ⟨.buf, new⟩ := rfl
    rw [e, got_extra]
    by_cases hav : h.av h.reqs ⟨.buf, new⟩ = true
    · rw [if_pos hav] at hne
      rw [if_pos hav, if_pos hav]
      by_cases ho : old = 0
      · rw [if_pos ho, if_pos ho]
      · rw [if_neg ho] at hne
        rw [if_neg ho, if_neg ho]
        exact (Framed.freeB _ _).frame _ _ hne
    · rw [if_neg hav, if_neg hav]
      rfl
  · intro h
    unfold Flbwt.reallocB
    by_cases hav : h.av h.reqs ⟨.buf, new⟩ = true
    · rw [if_pos hav]
      by_cases ho : old = 0
      · rw [if_pos ho]; exact .got h _
      · rw [if_neg ho]; exact (Asks.got h _).trans ((Framed.freeB _ _).asks _)
    · rw [if_neg hav]; exact .refused hav
  · intro h p
    unfold Flbwt.reallocB
    have e : (h.high p).av (h.high p).reqs ⟨.buf, new⟩ = h.av h.reqs ⟨.buf, new⟩ := rfl
    rw [e, got_high]
    split
    · split
      · rfl
      · exact (Framed.freeB _ _).blind _ _
    · rfl

theorem onBadAlloc {x : H α} {c : H Unit} (hx : Framed x) (hc : Framed c) : Framed (onBadAlloc x c) := by
  refine ⟨?_, ?_, ?_⟩
  · intro h F hne
    unfold Flbwt.onBadAlloc at hne ⊢
    have h1 := hx.frame h F
    rcases hr : x h with ⟨r, h'⟩
    rw [hr] at hne h1
    have hb : r ≠ .error .badFree := by
      rintro rfl
      exact absurd rfl hne
    rw [h1 hb]
    cases r with
    | ok a => rfl
    | error e =>
      cases e with
      | prog e => rfl
      | badFree => exact absurd rfl hb
      | badAlloc =>
        simp only at hne ⊢
        have h2 := hc.frame h' F
        rcases hq : c h' with ⟨q, h''⟩
        rw [hq] at hne h2
        cases q with
        | ok u => rw [h2 (by simp)]
        | error e =>
          simp only at hne
          rw [h2 (by simpa using hne)]
  · intro h
    unfold Flbwt.onBadAlloc
    have h1 := hx.asks h
    rcases hr : x h with ⟨r, h'⟩
    rw [hr] at h1
    cases r with
    | ok a => exact h1
    | error e =>
      cases e with
      | prog e => exact h1
      | badFree => exact h1
      | badAlloc =>
        simp only
        have h2 := hc.asks h'
        rcases hq : c h' with ⟨q, h''⟩
        rw [hq] at h2
        cases q <;> exact h1.trans h2
  · intro h p
    unfold Flbwt.onBadAlloc
    rw [hx.blind h p]
    rcases x h with ⟨r, h'⟩
    cases r with
    | ok a => rfl
    | error e =>
      cases e with
      | prog e => rfl
      | badFree => rfl
      | badAlloc =>
        simp only
        rw [hc.blind h' p]
        rcases c h' with ⟨q, h''⟩
        cases q <;> rfl

theorem ite {c : Prop} [Decidable c] {x y : H α} (hx : Framed x) (hy : Framed y) : Framed (if c then x else y) := by
  split
  · exact hx
  · exact hy

theorem whenH {c : Prop} [Decidable c] {x : H Unit} (hx : Framed x) : Framed (whenH c x) := by
  unfold Flbwt.whenH
  exact ite hx (pure _)

theorem loopUpH {f : Nat → σ → H σ} (lo cnt : Nat) (s : σ) (hf : ∀ i s, Framed (f i s)) : Framed (loopUpH lo cnt s f) := by
  induction cnt generalizing lo s with
  | zero => exact pure _
  | succ c ih => exact bind (hf _ _) (fun s' => ih _ s')

theorem loopDownH {f : Nat → σ → H σ} (hi : Nat) (s : σ) (hf : ∀ i s, Framed (f i s)) : Framed (loopDownH hi s f) := by
  induction hi generalizing s with
  | zero => exact pure _
  | succ c ih => exact bind (hf _ _) (fun s' => ih s')

theorem whileH {f : σ → H (σ ⊕ β)} (fuel : Nat) (s : σ) (hf : ∀ s, Framed (f s)) : Framed (whileH fuel s f) := by
  induction fuel generalizing s with
  | zero => exact lift _
  | succ c ih =>
    refine bind (hf _) (fun r => ?_)
    cases r with
    | inl s' => exact ih s'
    | inr b => exact pure _

end Framed

/-- one step of a proof of `Framed` -/
macro "frm1" : tactic => `(tactic| with_reducible first | exact Framed.pure _ | exact Framed.lift _ | exact Framed.newB _ _ | exact Framed.freeB _ _ | exact Framed.mallocB _ | exact Framed.nonNull _ | exact Framed.reallocB _ _ | assumption | apply Framed.whenH | apply Framed.onBadAlloc | (apply Framed.loopUpH; intro _ _) | (apply Framed.loopDownH; intro _ _) | (apply Framed.whileH; intro _) | (refine Framed.bind ?_ (fun _ => ?_)) | split)

/-- `Framed` by the shape of the program -/
macro "frm" : tactic => `(tactic| repeat' (first | frm1 | with_reducible dsimp only))

theorem newQBlockH_framed (w : Nat) : Framed (newQBlockH w) := by unfold newQBlockH; frm
theorem freeQBlockH_framed (w : Nat) : Framed (freeQBlockH w) := by unfold freeQBlockH; frm
theorem enqueueH_framed (sj : BitVec 64) (q : Queue) (x : BitVec 64) : Framed (q.enqueueH sj x) := by
  have := newQBlockH_framed q.w
  unfold Queue.enqueueH; frm
theorem enqueueLH_framed (sj : BitVec 64) (q : Queue) (x : BitVec 64) : Framed (q.enqueueLH sj x) := by
  have := newQBlockH_framed q.w
  unfold Queue.enqueueLH; frm
theorem dequeueH_framed (sj : BitVec 64) (q : Queue) : Framed (q.dequeueH sj) := by
  have := freeQBlockH_framed q.w
  unfold Queue.dequeueH; frm
theorem destroyStepH_framed (q : Queue) : Framed q.destroyStepH := by
  have := freeQBlockH_framed q.w
  unfold Queue.destroyStepH; frm
theorem destroyH_framed (fuel : Nat) (q : Queue) : Framed (q.destroyH fuel) :=
  Framed.whileH _ _ destroyStepH_framed
theorem newTableH_framed (k n : Nat) : Framed (newTableH k n) := by unfold newTableH; frm
theorem makeRoomH_framed (junk : Fresh) (ht : HashTable) (h q : Nat) (r : Option Nat) (space : Nat) :
    Framed (makeRoomH junk ht h q r space) := by unfold makeRoomH; frm
theorem insertStringH_framed (junk : Fresh) (ht : HashTable) (T : Mem Nat) (m p : Nat) : Framed (insertStringH junk ht T m p) := by
  have := makeRoomH_framed
  unfold insertStringH; frm
  all_goals exact this _ _ _ _ _ _
theorem deleteTableH_framed (ht : HashTable) : Framed (deleteTableH ht) := by unfold deleteTableH; frm
theorem deleteContainerH_framed (ct : Container) : Framed (deleteContainerH ct) := by
  have := deleteTableH_framed
  unfold deleteContainerH; frm
  all_goals exact this _
theorem exFoundH_framed (junk : Fresh) (T : Mem Nat) (i : Nat) (s : ExSt) : Framed (exFoundH junk T i s) := by
  have := insertStringH_framed
  unfold exFoundH; frm
  all_goals exact this _ _ _ _ _
theorem exMaybeH_framed (junk : Fresh) (T : Mem Nat) (i : Nat) (s : ExSt) : Framed (exMaybeH junk T i s) :=
  Framed.ite (exFoundH_framed _ _ _ _) (Framed.pure _)
theorem exStepH_framed (junk : Fresh) (T : Mem Nat) (i : Nat) (s : ExSt) : Framed (exStepH junk T i s) := by
  have := exMaybeH_framed
  unfold exStepH; frm
  all_goals exact this _ _ _ _
theorem extractRestH_framed (junk : Fresh) (T : Mem Nat) (n : Nat) : Framed (extractRestH junk T n) := by
  have := exStepH_framed
  have h2 := newTableH_framed
  unfold extractRestH; frm
  all_goals first | exact this _ _ _ _ | exact h2 _ _
theorem sortLMSH_framed (sorter : Sorter) (pj : Nat → Nat) (junk : Fresh) (T : Mem Nat) (ct : Container) :
    Framed (sortLMSH sorter pj junk T ct) := by unfold sortLMSH; frm
theorem createShortenedH_framed (tj : Nat → BitVec 64) (sj : BitVec 64) (T : Mem Nat) (n : Nat) (ct : Container) :
    Framed (createShortenedH tj sj T n ct) := by unfold createShortenedH; frm
theorem deletePackedH_framed (p : PackedArray) : Framed (deletePackedH p) := by unfold deletePackedH; frm
theorem newAllH_framed (L : List Blk) : Framed (newAllH L) := by
  induction L with
  | nil => exact Framed.pure _
  | cons b l ih => unfold newAllH; frm
theorem freeAllH_framed (L : List Blk) : Framed (freeAllH L) := by
  induction L with
  | nil => exact Framed.pure _
  | cons b l ih => unfold freeAllH; frm

section
variable {S : Type} [SaStore S] [SaBlocks S]

theorem placeCountersH_framed (n k fs : Nat) (junk : Nat → BitVec 64) (s : St S) : Framed (placeCountersH n k fs junk s) := by
  have := newAllH_framed
  unfold placeCountersH; frm
  all_goals exact this _
theorem freeCountersH_framed (k fs : Nat) (s : St S) : Framed (freeCountersH k fs s) := by
  have := freeAllH_framed
  unfold freeCountersH; frm
  all_goals exact this _
theorem stage1H_framed (junk : Nat → BitVec 64) (e : Env) (fs n k : Nat) (s : St S) : Framed (stage1H junk e fs n k s) := by
  have h1 := @placeCountersH_framed S _ _
  have h2 := @freeCountersH_framed S _ _
  unfold stage1H; frm
  all_goals first | exact h1 _ _ _ _ _ | exact h2 _ _ _
theorem stage3H_framed (junk : Nat → BitVec 64) (e : Env) (fs n k m : Nat) (s : St S) : Framed (stage3H junk e fs n k m s) := by
  have h1 := @placeCountersH_framed S _ _
  have h2 := @freeCountersH_framed S _ _
  unfold stage3H; frm
  all_goals first | exact h1 _ _ _ _ _ | exact h2 _ _ _
theorem saisH_framed (junk : Nat → Nat → BitVec 64) (fuel : Nat) : ∀ (e : Env) (fs n k : Nat) (s : St S),
    Framed (saisH junk fuel e fs n k s) := by
  induction fuel with
  | zero => intro e fs n k s; exact Framed.lift _
  | succ c ih =>
    intro e fs n k s
    have h1 := @stage1H_framed S _ _
    have h3 := @stage3H_framed S _ _
    rw [saisH]
    refine Framed.bind (h1 _ _ _ _ _ _) (fun r => ?_)
    dsimp only
    split
    · exact Framed.bind (Framed.lift _) (fun _ => Framed.bind (ih _ _ _ _ _) (fun _ => Framed.bind (Framed.lift _) (fun _ => h3 _ _ _ _ _ _ _)))
    · exact Framed.bind (Framed.pure _) (fun _ => h3 _ _ _ _ _ _ _)

end

theorem enqH_framed (sj : BitVec 64) (s : IndSt) (t c : Nat) (x : Int) : Framed (s.enqH sj t c x) := by
  have := enqueueH_framed
  unfold IndSt.enqH; frm
  all_goals exact this _ _ _
theorem enqLH_framed (sj : BitVec 64) (s : IndSt) (t c : Nat) (x : Int) : Framed (s.enqLH sj t c x) := by
  have := enqueueLH_framed
  unfold IndSt.enqLH; frm
  all_goals exact this _ _ _
theorem deqH_framed (sj : BitVec 64) (s : IndSt) (t c : Nat) : Framed (s.deqH sj t c) := by
  have := dequeueH_framed
  unfold IndSt.deqH; frm
  all_goals exact this _ _
theorem newQueuesH_framed (k : Nat) : Framed (newQueuesH k) := by unfold newQueuesH; frm
theorem deleteQueuesH_framed (t : Nat) (s : IndSt) : Framed (deleteQueuesH t s) := by
  have := destroyH_framed
  unfold deleteQueuesH; frm
  all_goals exact this _ _
theorem seedH_framed {S : Type} [SaStore S] (e : IndEnv) (sa : S) (num : Nat) (s : IndSt) : Framed (seedH e sa num s) := by
  have := enqLH_framed
  unfold seedH; frm
  all_goals exact this _ _ _ _ _
theorem induceLH_framed (e : IndEnv) (c1 : Nat) (q : Int) (s : IndSt) : Framed (induceLH e c1 q s) := by
  have := enqH_framed
  unfold induceLH; frm
  all_goals exact this _ _ _ _ _
theorem firstRowH_framed (e : IndEnv) (s : IndSt) : Framed (firstRowH e s) := by
  have h1 := deqH_framed
  have h2 := induceLH_framed
  unfold firstRowH; frm
  all_goals first | exact h1 _ _ _ _ | exact h2 _ _ _ _
theorem visit1H_framed (e : IndEnv) (c t : Nat) (m q : Int) (s : IndSt) : Framed (visit1H e c t m q s) := by
  have h1 := enqLH_framed
  have h2 := induceLH_framed
  unfold visit1H; frm
  all_goals first | exact h1 _ _ _ _ _ | exact h2 _ _ _ _
theorem step1H_framed (e : IndEnv) (c t : Nat) (x : IndSt × Int) : Framed (step1H e c t x) := by
  have h1 := deqH_framed
  have h2 := visit1H_framed
  unfold step1H; frm
  all_goals first | exact h1 _ _ _ _ | exact h2 _ _ _ _ _ _
theorem drain1H_framed (e : IndEnv) (fuel c t : Nat) (s : IndSt) : Framed (drain1H e fuel c t s) := by
  have h1 := step1H_framed
  unfold drain1H; frm
  all_goals exact h1 _ _ _ _
theorem pass1H_framed (e : IndEnv) (fuel : Nat) (s : IndSt) : Framed (pass1H e fuel s) := by
  have h1 := drain1H_framed
  unfold pass1H; frm
  all_goals exact h1 _ _ _ _ _
theorem visit2H_framed (e : IndEnv) (c : Nat) (q : Int) (s : IndSt) : Framed (visit2H e c q s) := by
  have h1 := enqH_framed
  unfold visit2H; frm
  all_goals exact h1 _ _ _ _ _
theorem step2H_framed (e : IndEnv) (c t : Nat) (s : IndSt) : Framed (step2H e c t s) := by
  have h1 := deqH_framed
  have h2 := visit2H_framed
  unfold step2H; frm
  all_goals first | exact h1 _ _ _ _ | exact h2 _ _ _ _
theorem pass2H_framed (e : IndEnv) (fuel : Nat) (s : IndSt) : Framed (pass2H e fuel s) := by
  have h1 := step2H_framed
  unfold pass2H; frm
  all_goals exact h1 _ _ _ _

theorem induceBwtH_framed {S : Type} [SaStore S] [SaBlocks S] (qj : Nat → Nat → Nat → Nat → BitVec 64) (bj : Nat → Nat)
    (sj : BitVec 64) (fuel : Nat) (buf : Mem Nat) (sa : S) (ct : Container) : Framed (induceBwtH qj bj sj fuel buf sa ct) := by
  have h1 := newQueuesH_framed
  have h2 := @seedH_framed S _
  have h3 := freeAllH_framed
  have h4 := firstRowH_framed
  have h5 := pass1H_framed
  have h6 := deleteQueuesH_framed
  have h7 := pass2H_framed
  unfold induceBwtH; frm
  all_goals first | exact h1 _ | exact h2 _ _ _ _ | exact h3 _ | exact h4 _ _ | exact h5 _ _ _ | exact h6 _ _ | exact h7 _ _ _

theorem branchH_framed (S : Type) [SaStore S] [SaBlocks S] (w : World) (s : Mem Nat) (T1 : PackedArray) (ht : HashTable)
    (ct : Container) : Framed (branchH S w s T1 ht ct) := by
  have h1 := newAllH_framed
  have h2 := @saisH_framed S _ _
  have h3 := deletePackedH_framed
  have h4 := @induceBwtH_framed S _ _
  unfold branchH; frm
  all_goals first | exact h1 _ | exact h2 _ _ _ _ _ _ _ | exact h3 _ | exact h4 _ _ _ _ _ _ _

theorem someH_framed {α : Type _} {x : H α} (hx : Framed x) : Framed (someH x) := Framed.bind hx (fun _ => Framed.pure _)

theorem finishH_framed (w : World) (s : Mem Nat) (T1 : PackedArray) (ct : Container) : Framed (finishH w s T1 ct) := by
  have h (S : Type) [SaStore S] [SaBlocks S] (ht : HashTable) : Framed (someH (branchH S w s T1 ht ct)) :=
    someH_framed (branchH_framed S w s T1 ht ct)
  unfold finishH
  split
  · exact Framed.lift _
  · refine Framed.bind (Framed.lift _) (fun bits => ?_)
    exact Framed.ite (h _ _) (Framed.ite (h _ _) (Framed.ite (h _ _) (Framed.ite (h _ _) (Framed.ite (h _ _) (Framed.pure _)))))

theorem releaseH_framed (freeT : Bool) (T : Mem Nat) : Framed (releaseH freeT T) := by unfold releaseH; frm

theorem bwtIsH_framed (w : World) (T : Mem Nat) (n : Nat) (freeT : Bool) : Framed (bwtIsH w T n freeT) := by
  have h1 := extractRestH_framed
  have h2 := sortLMSH_framed
  have h3 := createShortenedH_framed
  have h4 := releaseH_framed
  have h5 := finishH_framed
  have h6 := deleteContainerH_framed
  unfold bwtIsH; frm
  all_goals first | exact h1 _ _ _ | exact h2 _ _ _ _ _ | exact h3 _ _ _ _ _ | exact h4 _ _ | exact h5 _ _ _ _ | exact h6 _

theorem bwtStringH_framed (w : World) (T : Option (Mem Nat)) (n : Nat) (freeT : Bool) : Framed (bwtStringH w T n freeT) := by
  unfold bwtStringH
  split
  · exact Framed.lift _
  · exact Framed.ite (Framed.lift _) (bwtIsH_framed _ _ _ _)

theorem releaseResultH_framed (n : Nat) : Framed (releaseResultH n) := by unfold releaseResultH; frm

end Flbwt
