import Verif.Frame
import Verif.PropsFileHeap

/-!
# Memory in use when a call fails

`Capped x`: a run with an arbitrary schedule goes along with the run in which every request is satisfied, or it ends in
an error, and then it has not used more memory than that run uses. Shown for every function of `HeapModel.lean`.
-/

namespace Flbwt

open SaStore

/-- Two heaps with the same blocks and the same memory in use; on the second every request is satisfied. Used in proofs
only. -/
structure Twin (h1 h2 : Heap) : Prop where
  av : ∀ k b, h2.av k b = true
  live : h1.live = h2.live
  total : h1.total = h2.total
  peak : h1.peak = h2.peak

theorem Twin.got {h1 h2 : Heap} (t : Twin h1 h2) (b : Blk) : Twin (h1.got b) (h2.got b) := by
  refine ⟨t.av, ?_, ?_, ?_⟩
  · simp only [Heap.got, Heap.add, t.live]
  · simp only [Heap.got, Heap.add, t.total]
  · simp only [Heap.got, Heap.add, t.total, t.peak]

theorem Twin.sub {h1 h2 : Heap} (t : Twin h1 h2) (b : Blk) : Twin (h1.sub b) (h2.sub b) := by
  refine ⟨t.av, ?_, ?_, t.peak⟩
  · simp only [Heap.sub, t.live]
  · simp only [Heap.sub, t.total]

/-- in lockstep, or ended by an error below the peak of the other run. Used in proofs only. -/
def Along {α : Type _} (x y : Except HErr α × Heap) : Prop :=
  (x.1 = y.1 ∧ Twin x.2 y.2) ∨ ((∃ e, x.1 = .error e) ∧ x.2.peak ≤ y.2.peak)

/-- Used in proofs only. -/
structure Capped {α : Type _} (x : H α) : Prop where
  along : ∀ h1 h2, Twin h1 h2 → Along (x h1) (x h2)
  mono : ∀ h, h.peak ≤ (x h).2.peak

namespace Capped
variable {α β σ : Type _}

theorem pure (a : α) : Capped (Pure.pure a : H α) := ⟨fun _ _ t => Or.inl ⟨rfl, t⟩, fun _ => Nat.le_refl _⟩

theorem lift (m : M α) : Capped (H.lift m) := by
  cases m <;> exact ⟨fun _ _ t => Or.inl ⟨rfl, t⟩, fun _ => Nat.le_refl _⟩

theorem bind {x : H α} {f : α → H β} (hx : Capped x) (hf : ∀ a, Capped (f a)) : Capped (x >>= f) := by
  refine ⟨fun h1 h2 t => ?_, fun h => ?_⟩
  · rw [H.bind_def, H.bind_def]
    have a := hx.along h1 h2 t
    rcases e1 : x h1 with ⟨r1, g1⟩
    rcases e2 : x h2 with ⟨r2, g2⟩
    rw [e1, e2] at a
    rcases a with ⟨hr, t'⟩ | ⟨⟨e, he⟩, hp⟩
    · simp only at hr t'
      subst hr
      cases r1 with
      | ok v => exact (hf v).along g1 g2 t'
      | error e => exact Or.inl ⟨rfl, t'⟩
    · simp only at he hp
      subst he
      refine Or.inr ⟨⟨e, rfl⟩, ?_⟩
      cases r2 with
      | ok v => exact Nat.le_trans hp ((hf v).mono g2)
      | error e' => exact hp
  · rw [H.bind_def]
    have a := hx.mono h
    rcases e1 : x h with ⟨r1, g1⟩
    rw [e1] at a
    cases r1 with
    | ok v => exact Nat.le_trans a ((hf v).mono g1)
    | error e => exact a

theorem got_peak (h : Heap) (b : Blk) : h.peak ≤ (h.got b).peak := Nat.le_max_left _ _

theorem newB (f : Fam) (b : Blk) : Capped (newB f b) := by
  refine ⟨fun h1 h2 t => ?_, fun h => ?_⟩
  · unfold Flbwt.newB
    by_cases hf : b.role.fam = f
    · rw [if_pos hf, if_pos hf, if_pos (t.av _ _)]
      by_cases hav : h1.av h1.reqs b = true
      · rw [if_pos hav]; exact Or.inl ⟨rfl, t.got b⟩
      · rw [if_neg hav]
        exact Or.inr ⟨⟨_, rfl⟩, by rw [show h1.refused.peak = h2.peak from t.peak]; exact got_peak h2 b⟩
    · rw [if_neg hf, if_neg hf]; exact Or.inl ⟨rfl, t⟩
  · unfold Flbwt.newB
    split
    · split
      · exact got_peak h b
      · exact Nat.le_refl _
    · exact Nat.le_refl _

/-- `malloc` of a block that is used at once -/
theorem mallocUse (b : Blk) : Capped (mallocB b >>= Flbwt.nonNull) := by
  refine ⟨fun h1 h2 t => ?_, fun h => ?_⟩
  · rw [H.bind_def, H.bind_def]
    unfold Flbwt.mallocB
    by_cases hf : b.role.fam = .c
    · rw [if_pos hf, if_pos hf, if_pos (t.av _ _)]
      by_cases hav : h1.av h1.reqs b = true
      · rw [if_pos hav]; exact Or.inl ⟨rfl, t.got b⟩
      · rw [if_neg hav]
        exact Or.inr ⟨⟨_, rfl⟩, by
          show h1.peak ≤ (h2.got b).peak
          rw [t.peak]; exact got_peak h2 b⟩
    · rw [if_neg hf, if_neg hf]; exact Or.inl ⟨rfl, t⟩
  · rw [H.bind_def]
    unfold Flbwt.mallocB
    by_cases hf : b.role.fam = .c
    · rw [if_pos hf]
      by_cases hav : h.av h.reqs b = true
      · rw [if_pos hav]; exact got_peak h b
      · rw [if_neg hav]; exact Nat.le_refl _
    · rw [if_neg hf]

/-- `x` ends in an error and has not used more memory than `y`, started with at least as much. Used in proofs only. -/
def Doomed (x : H α) (y : H α) : Prop := ∀ h1 h2 : Heap, (∀ k b, h2.av k b = true) → h1.total ≤ h2.total → h1.peak ≤ h2.peak →
  (∃ e, (x h1).1 = .error e) ∧ (x h1).2.peak ≤ (y h2).2.peak

theorem got_le {h1 h2 : Heap} {b : Blk} (ht : h1.total ≤ h2.total) (hp : h1.peak ≤ h2.peak) :
    (h1.got b).total ≤ (h2.got b).total ∧ (h1.got b).peak ≤ (h2.got b).peak := by
  simp only [Heap.got, Heap.add]
  omega

/-- `malloc` of a block that is used later -/
theorem mallocLate {b : Blk} {f : Bool → H α} (hb : b.role.fam = .c) (ht : Capped (f true)) (hf : Doomed (f false) (f true))
    (hm : Framed (f false)) : Capped (mallocB b >>= f) := by
  refine ⟨fun h1 h2 t => ?_, fun h => ?_⟩
  · rw [H.bind_def, H.bind_def]
    unfold Flbwt.mallocB
    rw [if_pos hb, if_pos hb, if_pos (t.av _ _)]
    by_cases hav : h1.av h1.reqs b = true
    · rw [if_pos hav]; exact ht.along _ _ (t.got b)
    · rw [if_neg hav]
      refine Or.inr (hf _ _ t.av ?_ ?_)
      · show h1.total ≤ (h2.got b).total
        rw [t.total]
        exact Nat.le_add_right _ _
      · show h1.peak ≤ (h2.got b).peak
        rw [t.peak]
        exact got_peak _ _
  · rw [H.bind_def]
    unfold Flbwt.mallocB
    rw [if_pos hb]
    by_cases hav : h.av h.reqs b = true
    · rw [if_pos hav]; exact Nat.le_trans (got_peak h b) (ht.mono _)
    · rw [if_neg hav]; exact (hm.asks h.refused).peak

namespace Doomed
variable {γ : Type _}

theorem newB {f : Fam} {b : Blk} {x y : Unit → H α} (hb : b.role.fam = f) (hx : Doomed (x ()) (y ())) (hy : ∀ u, Framed (y u)) :
    Doomed (Flbwt.newB f b >>= x) (Flbwt.newB f b >>= y) := by
  intro h1 h2 av ht hp
  rw [H.bind_def, H.bind_def]
  unfold Flbwt.newB
  rw [if_pos hb, if_pos hb, if_pos (av _ _)]
  obtain ⟨g1, g2⟩ := got_le (b := b) ht hp
  by_cases hav : h1.av h1.reqs b = true
  · rw [if_pos hav]; exact hx _ _ av g1 g2
  · rw [if_neg hav]
    exact ⟨⟨_, rfl⟩, Nat.le_trans hp (Nat.le_trans (got_peak h2 b) ((hy ()).asks _).peak)⟩

theorem mallocB {b : Blk} {x y : Bool → H α} (hb : b.role.fam = .c) (h1 : Doomed (x true) (y true)) (h2 : Doomed (x false) (y true)) :
    Doomed (Flbwt.mallocB b >>= x) (Flbwt.mallocB b >>= y) := by
  intro g1 g2 av ht hp
  rw [H.bind_def, H.bind_def]
  unfold Flbwt.mallocB
  rw [if_pos hb, if_pos hb, if_pos (av _ _)]
  obtain ⟨q1, q2⟩ := got_le (b := b) ht hp
  by_cases hav : g1.av g1.reqs b = true
  · rw [if_pos hav]; exact h1 _ _ av q1 q2
  · rw [if_neg hav]
    exact h2 _ _ av (Nat.le_trans ht (Nat.le_add_right _ _)) (Nat.le_trans hp (got_peak g2 b))

theorem null {x : Unit → H α} {y : H α} (hy : Framed y) : Doomed (Flbwt.nonNull false >>= x) y := by
  intro g1 g2 _ _ hp
  exact ⟨⟨_, rfl⟩, Nat.le_trans hp (hy.asks _).peak⟩

theorem lift {m : M γ} {x y : γ → H α} (h : ∀ v, Doomed (x v) (y v)) : Doomed (H.lift m >>= x) (H.lift m >>= y) := by
  cases m with
  | ok v => exact h v
  | error e => exact fun g1 g2 _ _ hp => ⟨⟨_, rfl⟩, hp⟩

/-- a `realloc`, then the null pointer is used -/
theorem realloc {old new : Nat} {x y : Unit → H α} (hy : ∀ u, Framed (y u)) :
    Doomed (Flbwt.reallocB old new >>= fun _ => Flbwt.nonNull false >>= x) (Flbwt.reallocB old new >>= y) := by
  intro g1 g2 av ht hp
  obtain ⟨q1, q2⟩ := got_le (b := ⟨.buf, new⟩) ht hp
  have hfr : ∀ h : Heap, (Flbwt.freeB .c ⟨.buf, old⟩ h).2.peak = h.peak := by
    intro h
    unfold Flbwt.freeB
    split
    · split <;> rfl
    · rfl
  have hlow : (g2.got ⟨.buf, new⟩).peak ≤ ((Flbwt.reallocB old new >>= y) g2).2.peak := by
    rw [H.bind_def]
    have e : (Flbwt.reallocB old new g2).2.peak = (g2.got ⟨.buf, new⟩).peak := by
      unfold Flbwt.reallocB
      rw [if_pos (av _ _)]
      split
      · rfl
      · exact hfr _
    rw [← e]
    rcases Flbwt.reallocB old new g2 with ⟨r, g⟩
    cases r with
    | ok u => exact ((hy u).asks g).peak
    | error e => exact Nat.le_refl _
  have hup : (Flbwt.reallocB old new g1).2.peak ≤ (g2.got ⟨.buf, new⟩).peak := by
    unfold Flbwt.reallocB
    split
    · split
      · exact q2
      · rw [hfr]; exact q2
    · exact Nat.le_trans hp (got_peak _ _)
  rw [H.bind_def]
  rcases hr : Flbwt.reallocB old new g1 with ⟨r, g⟩
  rw [hr] at hup
  cases r with
  | ok u => exact ⟨⟨_, rfl⟩, Nat.le_trans hup hlow⟩
  | error e => exact ⟨⟨_, rfl⟩, Nat.le_trans hup hlow⟩

end Doomed

theorem nonNull_true : Capped (Flbwt.nonNull true) := ⟨fun _ _ t => Or.inl ⟨rfl, t⟩, fun _ => Nat.le_refl _⟩

theorem freeB (f : Fam) (b : Blk) : Capped (freeB f b) := by
  refine ⟨fun h1 h2 t => ?_, fun h => ?_⟩
  · unfold Flbwt.freeB
    rw [t.live]
    by_cases hf : b.role.fam = f
    · rw [if_pos hf, if_pos hf]
      by_cases hl : 1 ≤ h2.live b
      · rw [if_pos hl, if_pos hl]; exact Or.inl ⟨rfl, t.sub b⟩
      · rw [if_neg hl, if_neg hl]; exact Or.inl ⟨rfl, t⟩
    · rw [if_neg hf, if_neg hf]; exact Or.inl ⟨rfl, t⟩
  · unfold Flbwt.freeB
    split
    · split <;> exact Nat.le_refl _
    · exact Nat.le_refl _

theorem freeB_peak (f : Fam) (b : Blk) (h : Heap) : (Flbwt.freeB f b h).2.peak = h.peak := by
  unfold Flbwt.freeB
  split
  · split <;> rfl
  · rfl

theorem reallocB (old new : Nat) : Capped (reallocB old new) := by
  refine ⟨fun h1 h2 t => ?_, fun h => ?_⟩
  · unfold Flbwt.reallocB
    rw [if_pos (t.av _ _)]
    by_cases hav : h1.av h1.reqs ⟨.buf, new⟩ = true
    · rw [if_pos hav]
      by_cases ho : old = 0
      · rw [if_pos ho, if_pos ho]; exact Or.inl ⟨rfl, t.got _⟩
      · rw [if_neg ho, if_neg ho]; exact (Capped.freeB _ _).along _ _ (t.got _)
    · rw [if_neg hav]
      refine Or.inr ⟨⟨_, rfl⟩, ?_⟩
      show h1.peak ≤ _
      rw [t.peak]
      split
      · exact got_peak _ _
      · exact Nat.le_trans (got_peak _ _) ((Capped.freeB _ _).mono _)
  · unfold Flbwt.reallocB
    split
    · split
      · exact got_peak _ _
      · exact Nat.le_trans (got_peak _ _) ((Capped.freeB _ _).mono _)
    · exact Nat.le_refl _

/-- the clean-up only releases a block -/
theorem onBadAlloc {x : H α} (f : Fam) (b : Blk) (hx : Capped x) : Capped (onBadAlloc x (Flbwt.freeB f b)) := by
  have hp : ∀ (r : Except HErr α × Heap), (match r with
      | (.error .badAlloc, h') => (match Flbwt.freeB f b h' with
        | (.ok _, h'') => (.error .badAlloc, h'')
        | (.error e, h'') => (.error e, h''))
      | r => r : Except HErr α × Heap).2.peak = r.2.peak := by
    rintro ⟨r, g⟩
    cases r with
    | ok a => rfl
    | error e =>
      cases e with
      | prog e => rfl
      | badFree => rfl
      | badAlloc =>
        simp only
        have := freeB_peak f b g
        rcases hq : Flbwt.freeB f b g with ⟨q, g2⟩
        rw [hq] at this
        cases q <;> exact this
  refine ⟨fun h1 h2 t => ?_, fun h => ?_⟩
  · have a := hx.along h1 h2 t
    unfold Flbwt.onBadAlloc
    rcases a with ⟨hr, t'⟩ | ⟨⟨e, he⟩, hq⟩
    · rcases e1 : x h1 with ⟨r1, g1⟩
      rcases e2 : x h2 with ⟨r2, g2⟩
      rw [e1, e2] at hr t'
      simp only at hr t'
      subst hr
      cases r1 with
      | ok v => exact Or.inl ⟨rfl, t'⟩
      | error e =>
        cases e with
        | prog e => exact Or.inl ⟨rfl, t'⟩
        | badFree => exact Or.inl ⟨rfl, t'⟩
        | badAlloc =>
          simp only
          have := (Capped.freeB f b).along g1 g2 t'
          rcases q1 : Flbwt.freeB f b g1 with ⟨r1, k1⟩
          rcases q2 : Flbwt.freeB f b g2 with ⟨r2, k2⟩
          rw [q1, q2] at this
          rcases this with ⟨hr, t''⟩ | ⟨⟨e, he⟩, hq⟩
          · simp only at hr t''
            subst hr
            cases r1 <;> exact Or.inl ⟨rfl, t''⟩
          · simp only at he hq
            subst he
            refine Or.inr ⟨⟨e, rfl⟩, ?_⟩
            cases r2 <;> exact hq
    · refine Or.inr ⟨?_, ?_⟩
      · rcases e1 : x h1 with ⟨r1, g1⟩
        rw [e1] at he
        simp only at he
        subst he
        cases e with
        | prog e => exact ⟨_, rfl⟩
        | badFree => exact ⟨_, rfl⟩
        | badAlloc =>
          simp only
          rcases q1 : Flbwt.freeB f b g1 with ⟨r1, k1⟩
          cases r1 <;> exact ⟨_, rfl⟩
      · exact (hp (x h1)).trans_le (hq.trans_eq (hp (x h2)).symm)
  · exact (hx.mono h).trans_eq (hp (x h)).symm

theorem ite {c : Prop} [Decidable c] {x y : H α} (hx : Capped x) (hy : Capped y) : Capped (if c then x else y) := by
  split
  · exact hx
  · exact hy

theorem whenH {c : Prop} [Decidable c] {x : H Unit} (hx : Capped x) : Capped (whenH c x) := by
  unfold Flbwt.whenH
  exact ite hx (pure _)

theorem loopUpH {f : Nat → σ → H σ} (lo cnt : Nat) (s : σ) (hf : ∀ i s, Capped (f i s)) : Capped (loopUpH lo cnt s f) := by
  induction cnt generalizing lo s with
  | zero => exact pure _
  | succ c ih => exact bind (hf _ _) (fun s' => ih _ s')

theorem loopDownH {f : Nat → σ → H σ} (hi : Nat) (s : σ) (hf : ∀ i s, Capped (f i s)) : Capped (loopDownH hi s f) := by
  induction hi generalizing s with
  | zero => exact pure _
  | succ c ih => exact bind (hf _ _) (fun s' => ih s')

theorem whileH {f : σ → H (σ ⊕ β)} (fuel : Nat) (s : σ) (hf : ∀ s, Capped (f s)) : Capped (whileH fuel s f) := by
  induction fuel generalizing s with
  | zero => exact lift _
  | succ c ih =>
    refine bind (hf _) (fun r => ?_)
    cases r with
    | inl s' => exact ih s'
    | inr b => exact pure _

end Capped

/-- one step of a proof of `Capped` -/
macro "cap1" : tactic => `(tactic| with_reducible first | exact Capped.pure _ | exact Capped.lift _ | exact Capped.newB _ _ | exact Capped.freeB _ _ | exact Capped.mallocUse _ | exact Capped.reallocB _ _ | assumption | apply Capped.whenH | apply Capped.onBadAlloc | (apply Capped.loopUpH; intro _ _) | (apply Capped.loopDownH; intro _ _) | (apply Capped.whileH; intro _) | (refine Capped.bind ?_ (fun _ => ?_)) | split)

/-- `Capped` by the shape of the program -/
macro "cap" : tactic => `(tactic| repeat' (first | cap1 | with_reducible dsimp only))

theorem newQBlockH_capped (w : Nat) : Capped (newQBlockH w) := by
  unfold newQBlockH
  refine .mallocLate rfl ?_ ?_ ?_
  · refine .bind (.newB _ _) (fun _ => .mallocLate rfl ?_ ?_ ?_)
    · exact .bind .nonNull_true (fun _ => .nonNull_true)
    · intro h1 h2 _ _ hp
      exact ⟨⟨_, rfl⟩, hp⟩
    · frm
  · refine .newB rfl (.mallocB rfl (.null ?_) (.null ?_)) (fun _ => ?_)
    · frm
    · frm
    · frm
  · frm
theorem freeQBlockH_capped (w : Nat) : Capped (freeQBlockH w) := by unfold freeQBlockH; cap
theorem enqueueH_capped (sj : BitVec 64) (q : Queue) (x : BitVec 64) : Capped (q.enqueueH sj x) := by
  have := newQBlockH_capped q.w
  unfold Queue.enqueueH; cap
theorem enqueueLH_capped (sj : BitVec 64) (q : Queue) (x : BitVec 64) : Capped (q.enqueueLH sj x) := by
  have := newQBlockH_capped q.w
  unfold Queue.enqueueLH; cap
theorem dequeueH_capped (sj : BitVec 64) (q : Queue) : Capped (q.dequeueH sj) := by
  have := freeQBlockH_capped q.w
  unfold Queue.dequeueH; cap
theorem destroyStepH_capped (q : Queue) : Capped q.destroyStepH := by
  have := freeQBlockH_capped q.w
  unfold Queue.destroyStepH; cap
theorem destroyH_capped (fuel : Nat) (q : Queue) : Capped (q.destroyH fuel) :=
  Capped.whileH _ _ destroyStepH_capped
theorem newTableH_capped (k n : Nat) : Capped (newTableH k n) := by unfold newTableH; cap
theorem makeRoomH_capped (junk : Fresh) (ht : HashTable) (h q : Nat) (r : Option Nat) (space : Nat) :
    Capped (makeRoomH junk ht h q r space) := by unfold makeRoomH; cap
theorem insertStringH_capped (junk : Fresh) (ht : HashTable) (T : Mem Nat) (m p : Nat) : Capped (insertStringH junk ht T m p) := by
  have := makeRoomH_capped
  unfold insertStringH; cap
  all_goals exact this _ _ _ _ _ _
theorem deleteTableH_capped (ht : HashTable) : Capped (deleteTableH ht) := by unfold deleteTableH; cap
theorem deleteContainerH_capped (ct : Container) : Capped (deleteContainerH ct) := by
  have := deleteTableH_capped
  unfold deleteContainerH; cap
  all_goals exact this _
theorem exFoundH_capped (junk : Fresh) (T : Mem Nat) (i : Nat) (s : ExSt) : Capped (exFoundH junk T i s) := by
  have := insertStringH_capped
  unfold exFoundH; cap
  all_goals exact this _ _ _ _ _
theorem exMaybeH_capped (junk : Fresh) (T : Mem Nat) (i : Nat) (s : ExSt) : Capped (exMaybeH junk T i s) :=
  Capped.ite (exFoundH_capped _ _ _ _) (Capped.pure _)
theorem exStepH_capped (junk : Fresh) (T : Mem Nat) (i : Nat) (s : ExSt) : Capped (exStepH junk T i s) := by
  have := exMaybeH_capped
  unfold exStepH; cap
  all_goals exact this _ _ _ _
theorem extractRestH_capped (junk : Fresh) (T : Mem Nat) (n : Nat) : Capped (extractRestH junk T n) := by
  have := exStepH_capped
  have h2 := newTableH_capped
  unfold extractRestH; cap
  all_goals first | exact this _ _ _ _ | exact h2 _ _
theorem sortLMSH_capped (sorter : Sorter) (pj : Nat → Nat) (junk : Fresh) (T : Mem Nat) (ct : Container) :
    Capped (sortLMSH sorter pj junk T ct) := by
  unfold sortLMSH
  refine .mallocLate rfl ?_ ?_ ?_
  · split
    · exact .lift _
    · exact .bind (.lift _) (fun _ => .bind (.reallocB _ _) (fun _ => .bind .nonNull_true (fun _ => .bind (.lift _) (fun _ => .lift _))))
  · split
    · exact fun h1 h2 _ _ hp => ⟨⟨_, rfl⟩, hp⟩
    · refine .lift (fun _ => .realloc (fun _ => ?_))
      frm
  · frm
theorem createShortenedH_capped (tj : Nat → BitVec 64) (sj : BitVec 64) (T : Mem Nat) (n : Nat) (ct : Container) :
    Capped (createShortenedH tj sj T n ct) := by unfold createShortenedH; cap
theorem deletePackedH_capped (p : PackedArray) : Capped (deletePackedH p) := by unfold deletePackedH; cap
theorem newAllH_capped (L : List Blk) : Capped (newAllH L) := by
  induction L with
  | nil => exact Capped.pure _
  | cons b l ih => unfold newAllH; cap
theorem freeAllH_capped (L : List Blk) : Capped (freeAllH L) := by
  induction L with
  | nil => exact Capped.pure _
  | cons b l ih => unfold freeAllH; cap

section
variable {S : Type} [SaStore S] [SaBlocks S]

theorem placeCountersH_capped (n k fs : Nat) (junk : Nat → BitVec 64) (s : St S) : Capped (placeCountersH n k fs junk s) := by
  have := newAllH_capped
  unfold placeCountersH; cap
  all_goals exact this _
theorem freeCountersH_capped (k fs : Nat) (s : St S) : Capped (freeCountersH k fs s) := by
  have := freeAllH_capped
  unfold freeCountersH; cap
  all_goals exact this _
theorem stage1H_capped (junk : Nat → BitVec 64) (e : Env) (fs n k : Nat) (s : St S) : Capped (stage1H junk e fs n k s) := by
  have h1 := @placeCountersH_capped S _ _
  have h2 := @freeCountersH_capped S _ _
  unfold stage1H; cap
  all_goals first | exact h1 _ _ _ _ _ | exact h2 _ _ _
theorem stage3H_capped (junk : Nat → BitVec 64) (e : Env) (fs n k m : Nat) (s : St S) : Capped (stage3H junk e fs n k m s) := by
  have h1 := @placeCountersH_capped S _ _
  have h2 := @freeCountersH_capped S _ _
  unfold stage3H; cap
  all_goals first | exact h1 _ _ _ _ _ | exact h2 _ _ _
theorem saisH_capped (junk : Nat → Nat → BitVec 64) (fuel : Nat) : ∀ (e : Env) (fs n k : Nat) (s : St S),
    Capped (saisH junk fuel e fs n k s) := by
  induction fuel with
  | zero => intro e fs n k s; exact Capped.lift _
  | succ c ih =>
    intro e fs n k s
    have h1 := @stage1H_capped S _ _
    have h3 := @stage3H_capped S _ _
    rw [saisH]
    refine Capped.bind (h1 _ _ _ _ _ _) (fun r => ?_)
    dsimp only
    split
    · exact Capped.bind (Capped.lift _) (fun _ => Capped.bind (ih _ _ _ _ _) (fun _ => Capped.bind (Capped.lift _) (fun _ => h3 _ _ _ _ _ _ _)))
    · exact Capped.bind (Capped.pure _) (fun _ => h3 _ _ _ _ _ _ _)

end

theorem enqH_capped (sj : BitVec 64) (s : IndSt) (t c : Nat) (x : Int) : Capped (s.enqH sj t c x) := by
  have := enqueueH_capped
  unfold IndSt.enqH; cap
  all_goals exact this _ _ _
theorem enqLH_capped (sj : BitVec 64) (s : IndSt) (t c : Nat) (x : Int) : Capped (s.enqLH sj t c x) := by
  have := enqueueLH_capped
  unfold IndSt.enqLH; cap
  all_goals exact this _ _ _
theorem deqH_capped (sj : BitVec 64) (s : IndSt) (t c : Nat) : Capped (s.deqH sj t c) := by
  have := dequeueH_capped
  unfold IndSt.deqH; cap
  all_goals exact this _ _
theorem newQueuesH_capped (k : Nat) : Capped (newQueuesH k) := by unfold newQueuesH; cap
theorem deleteQueuesH_capped (t : Nat) (s : IndSt) : Capped (deleteQueuesH t s) := by
  have := destroyH_capped
  unfold deleteQueuesH; cap
  all_goals exact this _ _
theorem seedH_capped {S : Type} [SaStore S] (e : IndEnv) (sa : S) (num : Nat) (s : IndSt) : Capped (seedH e sa num s) := by
  have := enqLH_capped
  unfold seedH; cap
  all_goals exact this _ _ _ _ _
theorem induceLH_capped (e : IndEnv) (c1 : Nat) (q : Int) (s : IndSt) : Capped (induceLH e c1 q s) := by
  have := enqH_capped
  unfold induceLH; cap
  all_goals exact this _ _ _ _ _
theorem firstRowH_capped (e : IndEnv) (s : IndSt) : Capped (firstRowH e s) := by
  have h1 := deqH_capped
  have h2 := induceLH_capped
  unfold firstRowH; cap
  all_goals first | exact h1 _ _ _ _ | exact h2 _ _ _ _
theorem visit1H_capped (e : IndEnv) (c t : Nat) (m q : Int) (s : IndSt) : Capped (visit1H e c t m q s) := by
  have h1 := enqLH_capped
  have h2 := induceLH_capped
  unfold visit1H; cap
  all_goals first | exact h1 _ _ _ _ _ | exact h2 _ _ _ _
theorem step1H_capped (e : IndEnv) (c t : Nat) (x : IndSt × Int) : Capped (step1H e c t x) := by
  have h1 := deqH_capped
  have h2 := visit1H_capped
  unfold step1H; cap
  all_goals first | exact h1 _ _ _ _ | exact h2 _ _ _ _ _ _
theorem drain1H_capped (e : IndEnv) (fuel c t : Nat) (s : IndSt) : Capped (drain1H e fuel c t s) := by
  have h1 := step1H_capped
  unfold drain1H; cap
  all_goals exact h1 _ _ _ _
theorem pass1H_capped (e : IndEnv) (fuel : Nat) (s : IndSt) : Capped (pass1H e fuel s) := by
  have h1 := drain1H_capped
  unfold pass1H; cap
  all_goals exact h1 _ _ _ _ _
theorem visit2H_capped (e : IndEnv) (c : Nat) (q : Int) (s : IndSt) : Capped (visit2H e c q s) := by
  have h1 := enqH_capped
  unfold visit2H; cap
  all_goals exact h1 _ _ _ _ _
theorem step2H_capped (e : IndEnv) (c t : Nat) (s : IndSt) : Capped (step2H e c t s) := by
  have h1 := deqH_capped
  have h2 := visit2H_capped
  unfold step2H; cap
  all_goals first | exact h1 _ _ _ _ | exact h2 _ _ _ _
theorem pass2H_capped (e : IndEnv) (fuel : Nat) (s : IndSt) : Capped (pass2H e fuel s) := by
  have h1 := step2H_capped
  unfold pass2H; cap
  all_goals exact h1 _ _ _ _

theorem induceBwtH_capped {S : Type} [SaStore S] [SaBlocks S] (qj : Nat → Nat → Nat → Nat → BitVec 64) (bj : Nat → Nat)
    (sj : BitVec 64) (fuel : Nat) (buf : Mem Nat) (sa : S) (ct : Container) : Capped (induceBwtH qj bj sj fuel buf sa ct) := by
  have h1 := newQueuesH_capped
  have h2 := @seedH_capped S _
  have h3 := freeAllH_capped
  have h4 := firstRowH_capped
  have h5 := pass1H_capped
  have h6 := deleteQueuesH_capped
  have h7 := pass2H_capped
  unfold induceBwtH; cap
  all_goals first | exact h1 _ | exact h2 _ _ _ _ | exact h3 _ | exact h4 _ _ | exact h5 _ _ _ | exact h6 _ _ | exact h7 _ _ _

theorem branchH_capped (S : Type) [SaStore S] [SaBlocks S] (w : World) (s : Mem Nat) (T1 : PackedArray) (ht : HashTable)
    (ct : Container) : Capped (branchH S w s T1 ht ct) := by
  have h1 := newAllH_capped
  have h2 := @saisH_capped S _ _
  have h3 := deletePackedH_capped
  have h4 := @induceBwtH_capped S _ _
  unfold branchH; cap
  all_goals first | exact h1 _ | exact h2 _ _ _ _ _ _ _ | exact h3 _ | exact h4 _ _ _ _ _ _ _

theorem someH_capped {α : Type _} {x : H α} (hx : Capped x) : Capped (someH x) := Capped.bind hx (fun _ => Capped.pure _)

theorem finishH_capped (w : World) (s : Mem Nat) (T1 : PackedArray) (ct : Container) : Capped (finishH w s T1 ct) := by
  have h (S : Type) [SaStore S] [SaBlocks S] (ht : HashTable) : Capped (someH (branchH S w s T1 ht ct)) :=
    someH_capped (branchH_capped S w s T1 ht ct)
  unfold finishH
  split
  · exact Capped.lift _
  · refine Capped.bind (Capped.lift _) (fun bits => ?_)
    exact Capped.ite (h _ _) (Capped.ite (h _ _) (Capped.ite (h _ _) (Capped.ite (h _ _) (Capped.ite (h _ _) (Capped.pure _)))))

theorem releaseH_capped (freeT : Bool) (T : Mem Nat) : Capped (releaseH freeT T) := by unfold releaseH; cap

theorem bwtIsH_capped (w : World) (T : Mem Nat) (n : Nat) (freeT : Bool) : Capped (bwtIsH w T n freeT) := by
  have h1 := extractRestH_capped
  have h2 := sortLMSH_capped
  have h3 := createShortenedH_capped
  have h4 := releaseH_capped
  have h5 := finishH_capped
  have h6 := deleteContainerH_capped
  unfold bwtIsH; cap
  all_goals first | exact h1 _ _ _ | exact h2 _ _ _ _ _ | exact h3 _ _ _ _ _ | exact h4 _ _ | exact h5 _ _ _ _ | exact h6 _

theorem bwtStringH_capped (w : World) (T : Option (Mem Nat)) (n : Nat) (freeT : Bool) : Capped (bwtStringH w T n freeT) := by
  unfold bwtStringH
  split
  · exact Capped.lift _
  · exact Capped.ite (Capped.lift _) (bwtIsH_capped _ _ _ _)

theorem releaseResultH_capped (n : Nat) : Capped (releaseResultH n) := by unfold releaseResultH; cap

/-! ## The properties -/

/-- **C50** also when the call fails: at no moment of a call, whatever its outcome and wherever memory runs out, are more than
`58·n + 70600000` bytes in use beyond those in use before. -/
theorem C50_linear_memory_any_outcome (w : World) {T : Mem Nat} {s : List Nat} (g : GoodCall w.junk w.sorter T s) (freeT : Bool)
    (h : Heap) (ht : TextOwned freeT T h) :
    (bwtStringH w (some T) s.length freeT h).2.peak ≤ max h.peak (h.total + 58 * s.length + 70600000) := by
  have tw : Twin h { h with av := fun _ _ => true } := ⟨fun _ _ => rfl, rfl, rfl, rfl⟩
  have ht2 : TextOwned freeT T { h with av := fun _ _ => true } := ht
  obtain ⟨r, T', h', e, _⟩ := C47_no_leak w g freeT _ ht2 (fun _ _ => rfl)
  have hb := C50_linear_memory w g freeT _ ht2 e
  have ha := (bwtStringH_capped w (some T) s.length freeT).along _ _ tw
  rw [e] at ha
  rcases ha with ⟨_, t⟩ | ⟨_, hp⟩
  · rw [t.peak]; exact hb
  · exact Nat.le_trans hp hb

/-- as `Along`, for computations with files. Used in proofs only. -/
def AlongF {α : Type} (x y : Except HErr α × FHState) : Prop :=
  (∃ h2, x.1 = y.1 ∧ y.2 = { x.2 with heap := h2 } ∧ Twin x.2.heap h2) ∨ ((∃ e, x.1 = .error e) ∧ x.2.heap.peak ≤ y.2.heap.peak)

/-- as `Capped`, for computations with files. Used in proofs only. -/
structure CappedF {α : Type} (m : FH α) : Prop where
  along : ∀ s h2, Twin s.heap h2 → AlongF (m s) (m { s with heap := h2 })
  mono : ∀ s, s.heap.peak ≤ (m s).2.heap.peak

namespace CappedF
variable {α β : Type}

theorem lift (m : M α) : CappedF (FH.lift m) := by
  cases m <;> exact ⟨fun _ h2 t => Or.inl ⟨h2, rfl, rfl, t⟩, fun _ => Nat.le_refl _⟩
theorem fail (e : Err) : CappedF (FH.fail e : FH α) := ⟨fun _ h2 t => Or.inl ⟨h2, rfl, rfl, t⟩, fun _ => Nat.le_refl _⟩
theorem liftH {m : H α} (hm : Capped m) : CappedF (FH.liftH m) := by
  refine ⟨fun s h2 t => ?_, fun s => hm.mono s.heap⟩
  have := hm.along s.heap h2 t
  unfold FH.liftH
  rcases e1 : m s.heap with ⟨r1, g1⟩
  rcases e2 : m h2 with ⟨r2, g2⟩
  rw [e1, e2] at this
  rcases this with ⟨hr, t'⟩ | ⟨he, hp⟩
  · exact Or.inl ⟨g2, hr, rfl, t'⟩
  · exact Or.inr ⟨he, hp⟩
theorem bind {m : FH α} {f : α → FH β} (hm : CappedF m) (hf : ∀ a, CappedF (f a)) : CappedF (m >>= f) := by
  refine ⟨fun s h2 t => ?_, fun s => ?_⟩
  · show AlongF (FH.bind m f s) (FH.bind m f { s with heap := h2 })
    unfold FH.bind
    have a := hm.along s h2 t
    rcases e1 : m s with ⟨r1, s1⟩
    rcases e2 : m { s with heap := h2 } with ⟨r2, s2⟩
    rw [e1, e2] at a
    rcases a with ⟨k2, hr, hs, t'⟩ | ⟨⟨e, he⟩, hp⟩
    · simp only at hr hs t'
      subst hr
      subst hs
      cases r1 with
      | ok v => exact (hf v).along s1 k2 t'
      | error e => exact Or.inl ⟨k2, rfl, rfl, t'⟩
    · simp only at he hp
      subst he
      refine Or.inr ⟨⟨e, rfl⟩, ?_⟩
      cases r2 with
      | ok v => exact Nat.le_trans hp ((hf v).mono s2)
      | error e' => exact hp
  · show s.heap.peak ≤ (FH.bind m f s).2.heap.peak
    unfold FH.bind
    have a := hm.mono s
    rcases e1 : m s with ⟨r1, s1⟩
    rw [e1] at a
    cases r1 with
    | ok v => exact Nat.le_trans a ((hf v).mono s1)
    | error e => exact a
theorem close : CappedF FH.close := by
  refine ⟨fun s h2 t => ?_, fun s => ?_⟩
  · unfold FH.close
    by_cases hc : 1 ≤ s.streams
    · rw [if_pos hc, if_pos (show 1 ≤ ({ s with heap := h2 } : FHState).streams from hc)]
      exact Or.inl ⟨h2, rfl, rfl, t⟩
    · rw [if_neg hc, if_neg (show ¬ 1 ≤ ({ s with heap := h2 } : FHState).streams from hc)]
      exact Or.inl ⟨h2, rfl, rfl, t⟩
  · unfold FH.close
    split <;> exact Nat.le_refl _
theorem openR (h : Host) (name : String) : CappedF (FH.openR h name) := by
  refine ⟨fun s h2 t => ?_, fun s => ?_⟩
  · unfold FH.openR
    simp only
    cases s.files name with
    | none => exact Or.inl ⟨h2, rfl, rfl, t⟩
    | some c =>
      simp only
      split <;> exact Or.inl ⟨h2, rfl, rfl, t⟩
  · unfold FH.openR
    split
    · split <;> exact Nat.le_refl _
    · exact Nat.le_refl _
theorem openW (h : Host) (name : String) : CappedF (FH.openW h name) := by
  refine ⟨fun s h2 t => ?_, fun s => ?_⟩
  · unfold FH.openW
    split <;> exact Or.inl ⟨h2, rfl, rfl, t⟩
  · unfold FH.openW
    split <;> exact Nat.le_refl _
theorem write (h : Host) (name : String) (y : List Nat) : CappedF (FH.write h name y) :=
  ⟨fun _ h2 t => Or.inl ⟨h2, rfl, rfl, t⟩, fun _ => Nat.le_refl _⟩
theorem ite {c : Prop} [Decidable c] {x y : FH α} (hx : CappedF x) (hy : CappedF y) : CappedF (if c then x else y) := by
  split
  · exact hx
  · exact hy

/-- `malloc`, tested by the code -/
theorem mallocTested {b : Blk} {x y : FH α} (hb : b.role.fam = .c) (hx : CappedF x)
    (hy : ∀ s, (∃ e, (y s).1 = .error e) ∧ (y s).2.heap.peak = s.heap.peak) :
    CappedF (FH.liftH (mallocB b) >>= fun p => if p then x else y) := by
  refine ⟨fun s h2 t => ?_, fun s => ?_⟩
  · show AlongF (FH.bind _ _ s) (FH.bind _ _ { s with heap := h2 })
    unfold FH.bind FH.liftH Flbwt.mallocB
    simp only
    rw [if_pos hb, if_pos hb, if_pos (t.av _ _)]
    by_cases hav : s.heap.av s.heap.reqs b = true
    · rw [if_pos hav]
      simp only [if_true]
      exact hx.along { s with heap := s.heap.got b } (h2.got b) (t.got b)
    · rw [if_neg hav]
      simp only [Bool.false_eq_true, if_false, if_true]
      obtain ⟨y1, y2⟩ := hy { s with heap := s.heap.refused }
      refine Or.inr ⟨y1, ?_⟩
      rw [y2]
      show s.heap.peak ≤ _
      rw [t.peak]
      exact Nat.le_trans (Capped.got_peak h2 b) (hx.mono { s with heap := h2.got b })
  · show s.heap.peak ≤ (FH.bind _ _ s).2.heap.peak
    unfold FH.bind FH.liftH Flbwt.mallocB
    simp only
    rw [if_pos hb]
    by_cases hav : s.heap.av s.heap.reqs b = true
    · rw [if_pos hav]
      simp only [if_true]
      exact Nat.le_trans (Capped.got_peak _ b) (hx.mono { s with heap := s.heap.got b })
    · rw [if_neg hav]
      simp only [Bool.false_eq_true, if_false]
      rw [(hy { s with heap := s.heap.refused }).2]
      exact Nat.le_refl _

end CappedF

theorem writeRowsH_capped (h : Host) (name : String) (n : Nat) (r : BwtResult) : CappedF (writeRowsH h name n r) := by
  unfold writeRowsH
  exact .ite (.bind (.lift _) (fun _ => .write _ _ _)) (.ite (.bind (.lift _) (fun _ => .write _ _ _))
    (.bind (.lift _) (fun _ => .bind (.write _ _ _) (fun _ => .bind (.lift _) (fun _ => .write _ _ _)))))

theorem writeResultH_capped (h : Host) (out : String) (n : Nat) (b : Option BwtResult) : CappedF (writeResultH h out n b) := by
  unfold writeResultH
  refine .bind (.openW _ _) (fun o => .ite ?_ (.fail _))
  split
  · exact .bind (.liftH (.newB _ _)) (fun _ => .bind (.write _ _ _) (fun _ => .bind (.liftH (.freeB _ _)) (fun _ =>
      .bind (writeRowsH_capped _ _ _ _) (fun _ => .bind .close (fun _ => .liftH (releaseResultH_capped _))))))
  · exact .close

theorem bwtFileH_capped (w : World) (h : Host) (inp out : String) : CappedF (bwtFileH w h inp out) := by
  unfold bwtFileH
  refine .bind (.openR _ _) (fun c => ?_)
  split
  · exact .fail _
  · refine .mallocTested rfl ?_ ?_
    · exact .bind (.lift _) (fun _ => .ite (.fail _) (.bind .close (fun _ => .bind (.lift _) (fun _ =>
        .bind (.liftH (bwtStringH_capped _ _ _ _)) (fun _ => writeResultH_capped _ _ _ _)))))
    · intro s
      show (∃ e, (FH.bind _ _ s).1 = _) ∧ (FH.bind _ _ s).2.heap.peak = _
      unfold FH.bind FH.close
      split
      · rename_i he
        split at he
        · cases he; exact ⟨⟨_, rfl⟩, rfl⟩
        · cases he
      · rename_i he
        split at he
        · cases he
        · cases he; exact ⟨⟨_, rfl⟩, rfl⟩

/-- **C57** also when the call fails: at no moment of a call of `bwt_file`, whatever its outcome (memory runs out anywhere, the
output cannot be opened), are more than `59·n + 70600001` bytes in use beyond those in use before. -/
theorem C57_linear_memory_any_outcome {w : World} {h : Host} {inp out : String} {s : FHState} {content : List Nat}
    (g : FileCallH w h inp s content) :
    (bwtFileH w h inp out s).2.heap.peak ≤ max s.heap.peak (s.heap.total + 59 * content.length + 70600001) := by
  have tw : Twin s.heap { s.heap with av := fun _ _ => true } := ⟨fun _ _ => rfl, rfl, rfl, rfl⟩
  have g2 : FileCallH w h inp { s with heap := { s.heap with av := fun _ _ => true } } content :=
    ⟨g.file, g.read, g.tell, g.full, g.len3, g.len57, g.byte, g.sort, g.safe, g.room⟩
  have hb : (bwtFileH w h inp out { s with heap := { s.heap with av := fun _ _ => true } }).2.heap.peak ≤
      max s.heap.peak (s.heap.total + 59 * content.length + 70600001) := by
    rcases bwtFileH_upto g2 out with ⟨c, _⟩ | ⟨_, _, _, _, _, _, _, _, _, c⟩ | ⟨r, h', x, hs, hbw, _, hav, ht, hp, hl⟩
    · cases c
    · cases c
    · by_cases hw : h.mayWrite out = true
      · have l1 : 1 ≤ h'.live (bwtBlk content.length) := by rw [hl]; simp
        have l2 : 1 ≤ h'.live resultBlk := by rw [hl]; simp
        have h57 := g.len57
        rcases writeResultH_run h out (by omega) hs (by have := hbw.last_lt; omega)
          { s with heap := h' } l1 l2 hw with ⟨c, y⟩ | ⟨l, s2, _, y, _⟩
        · have c : h'.av h'.reqs rankBlk = false := c
          rw [hav] at c
          cases c
        · have e := x.trans y
          have := C57_linear_memory g2 e
          rw [e]
          exact this
      · rw [x]
        unfold writeResultH
        rw [runH_ok (a := false) (s' := { s with heap := h' }) (by unfold FH.openW; rw [if_neg hw])]
        exact hp
  have ha := (bwtFileH_capped w h inp out).along s _ tw
  rcases ha with ⟨h2, _, e, t⟩ | ⟨_, hp⟩
  · rw [e] at hb
    rw [t.peak]; exact hb
  · exact Nat.le_trans hp hb

example (sj : BitVec 64) (av : Nat → Blk → Bool) :
    (bwtStringH (bananaWorld sj) (some (cString banana)) banana.length true { bananaHeap with av := av }).2.peak ≤
      max bananaHeap.peak (bananaHeap.total + 58 * banana.length + 70600000) :=
  C50_linear_memory_any_outcome (bananaWorld sj) (T := cString banana) (s := banana) banana_good true { bananaHeap with av := av }
    bananaHeap_owned

example (av : Nat → Blk → Bool) :
    (bwtFileH niceWorld niceHost "in" "out" { niceState with heap := { niceState.heap with av := av } }).2.heap.peak ≤
      max niceState.heap.peak (niceState.heap.total + 59 * 6 + 70600001) :=
  C57_linear_memory_any_outcome (content := banana) (niceH_call { niceState with heap := { niceState.heap with av := av } } rfl)

end Flbwt
