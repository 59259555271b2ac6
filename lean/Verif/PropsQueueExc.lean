import Verif.QueueObj
import Verif.HeapQueue
import Verif.PropsData

/-!
# C86: `Queue` when memory runs out
-/

namespace Flbwt

open Queue

/-! ## The client: catches `std::bad_alloc`, asks `is_empty` before it dequeues -/

/-- what the client learns from one operation -/
inductive QRes where
  | stored | refused | got (x : Int) | empty
  deriving DecidableEq, Repr

/-- `try { q.enqueue(x); … } catch (std::bad_alloc &) { … }`: any other way to end is passed on. Infrastructure: models the
caller, no code of the repository. -/
def catchX (x : QM Unit) : QM QRes := fun q h =>
  match x q h with
  | (.ok _, q', h') => (.ok .stored, q', h')
  | (.error .badAlloc, q', h') => (.ok .refused, q', h')
  | (.error e, q', h') => (.error e, q', h')

/-- `if (!q.is_empty()) x = q.dequeue();`. Infrastructure: models the caller, no code of the repository. -/
def takeX (sj : BitVec 64) : QM QRes := fun q h =>
  if q.isEmpty then (.ok .empty, q, h)
  else match dequeueX sj q h with
    | (.ok x, q', h') => (.ok (.got x), q', h')
    | (.error e, q', h') => (.error e, q', h')

/-- one operation of the client. Infrastructure: models the caller, no code of the repository. -/
def QOp.tryX (sj : BitVec 64) : QOp → QM QRes
  | .enqueue x => catchX (enqueueX sj x)
  | .enqueueL x => catchX (enqueueLX sj x)
  | .dequeue => takeX sj

/-- a history of operations. Infrastructure: models the caller, no code of the repository. -/
def QOp.triesX (sj : BitVec 64) : List QOp → QM (List QRes)
  | [] => pure []
  | o :: os => do
    let r ← o.tryX sj
    let rs ← QOp.triesX sj os
    pure (r :: rs)

/-! ## Specification -/

/-- Specification: what a double-ended sequence `l` contains after the operations, if they had these results: a refused
operation changes nothing. `none`: the results are not possible. -/
def QOp.after : List QOp → List QRes → List (BitVec 64) → Option (List (BitVec 64))
  | [], [], l => some l
  | .enqueue x :: os, .stored :: rs, l => QOp.after os rs (l ++ [x])
  | .enqueueL x :: os, .stored :: rs, l => QOp.after os rs (x :: l)
  | .enqueue _ :: os, .refused :: rs, l => QOp.after os rs l
  | .enqueueL _ :: os, .refused :: rs, l => QOp.after os rs l
  | .dequeue :: os, .got v :: rs, y :: l => if v = y.toInt then QOp.after os rs l else none
  | .dequeue :: os, .empty :: rs, [] => QOp.after os rs []
  | _, _, _ => none

/-! ## Proofs -/

theorem enqueueH_bad {sj x : BitVec 64} {q : Queue} {h h' : Heap} (e : q.enqueueH sj x h = (.error .badAlloc, h')) : QBad h h' := by
  unfold enqueueH whenH at e
  by_cases hc : q.eOfs = QSIZ - 1
  · rw [if_pos hc, H.bind_def] at e
    rcases requestX_run q.w q h with ⟨h1, r1, r2⟩ | ⟨h1, r1, r2, b⟩ | ⟨h1, r1, r2⟩ | ⟨h1, r1, r2⟩
    · rw [r1] at e
      cases hm : q.enqueue sj x with
      | ok a => rw [hm] at e; cases e
      | error y => rw [hm] at e; cases e
    · rw [r1] at e; cases e; exact b
    · rw [r1] at e; cases e
    · rw [r1] at e; cases e
  · rw [if_neg hc] at e
    cases hm : q.enqueue sj x with
    | ok a => rw [hm] at e; cases e
    | error y => rw [hm] at e; cases e

theorem enqueueLH_bad {sj x : BitVec 64} {q : Queue} {h h' : Heap} (e : q.enqueueLH sj x h = (.error .badAlloc, h')) : QBad h h' := by
  unfold enqueueLH whenH at e
  by_cases hc : q.sOfs = 0
  · rw [if_pos hc, H.bind_def] at e
    rcases requestX_run q.w q h with ⟨h1, r1, r2⟩ | ⟨h1, r1, r2, b⟩ | ⟨h1, r1, r2⟩ | ⟨h1, r1, r2⟩
    · rw [r1] at e
      cases hm : q.enqueueL sj x with
      | ok a => rw [hm] at e; cases e
      | error y => rw [hm] at e; cases e
    · rw [r1] at e; cases e; exact b
    · rw [r1] at e; cases e
    · rw [r1] at e; cases e
  · rw [if_neg hc] at e
    cases hm : q.enqueueL sj x with
    | ok a => rw [hm] at e; cases e
    | error y => rw [hm] at e; cases e

theorem Queue.QBad.lt {h h' : Heap} (b : QBad h h') : h.failed < h'.failed := by
  rcases b with ⟨rfl, _⟩ | ⟨rfl, _⟩
  · show h.failed < h.failed + 1
    omega
  · show h.failed < h.failed + 1 + 1
    omega

/-- invariant of a history: `l` the contents, `r` the number of refused operations, `c` the number of leaked blocks -/
structure QInv (w : Nat) (h0 : Heap) (l : List (BitVec 64)) (r c : Nat) (q : Queue) (h : Heap) : Prop where
  rep : q.Rep (l.map BitVec.toNat)
  width : q.w = w
  has : Has h0 (qblks w (liveQ q + 0) ++ List.replicate c qblockBlk) h
  av : h.av = h0.av
  refd : h0.failed + r ≤ h.failed
  le : c ≤ r
  all : (∀ k, h0.av k qblockBlk = true) → c = r

theorem QInv.bad {w r c : Nat} {h0 h h' : Heap} {l : List (BitVec 64)} {q : Queue} (i : QInv w h0 l r c q h) (b : QBad h h') :
    ∃ c', QInv w h0 l (r + 1) c' q h' := by
  rcases b with ⟨rfl, _⟩ | ⟨rfl, hb⟩
  · refine ⟨c + 1, i.rep, i.width, ?_, i.av, ?_, ?_, ?_⟩
    · have a1 := i.has.got qblockBlk
      have a2 : Has h0 (qblks w (liveQ q + 0) ++ List.replicate (c + 1) qblockBlk) (h.got qblockBlk) := by
        refine a1.perm ?_
        rw [List.replicate_succ]
        exact List.perm_middle.symm
      exact ⟨a2.live, a2.total⟩
    · have := i.refd
      show h0.failed + (r + 1) ≤ h.failed + 1
      omega
    · have := i.le; omega
    · intro ha; rw [i.all ha]
  · refine ⟨c, i.rep, i.width, ⟨i.has.live, i.has.total⟩, i.av, ?_, ?_, ?_⟩
    · have := i.refd
      show h0.failed + (r + 1) ≤ h.failed + 1 + 1
      omega
    · have := i.le; omega
    · intro ha
      rw [i.av, ha] at hb
      cases hb

/-- one `enqueue` or `enqueue_l` of the client -/
theorem QInv.store {w r c : Nat} {h0 h : Heap} {l l' : List (BitVec 64)} {q : Queue} {eX : QM Unit} {eH : H Queue} {m : M Queue}
    (i : QInv w h0 l r c q h) (hM : Matches q (eH h) (eX q h))
    (hP : Post (fun _ => True) h m (fun q' h' => (QOk w q' ∧ q'.n = q.n + 1) ∧
      Has h0 (qblks w (liveQ q' + 0) ++ List.replicate c qblockBlk) h' ∧ h'.peak ≤ max h.peak h'.total) (eH h))
    (hT : Tot m (fun q' => q'.Rep (l'.map BitVec.toNat) ∧ q'.w = q.w))
    (hB : ∀ h', eH h = (.error .badAlloc, h') → QBad h h') :
    match catchX eX q h with
    | (.ok .stored, q', h') => QInv w h0 l' r c q' h'
    | (.ok .refused, q', h') => (q' = q ∧ h.failed < h'.failed) ∧ ∃ c', QInv w h0 l (r + 1) c' q' h'
    | (.ok _, _, _) => False
    | (.error e, _, h') => e = .prog (.ub .nullDeref) ∧ h.failed < h'.failed := by
  obtain ⟨q1, e1, t1, t2⟩ := Tot_iff.1 hT
  unfold catchX
  generalize hy : eH h = y at hM hP hB
  rcases y with ⟨y, h'⟩
  cases y with
  | ok q' =>
    have hM : eX q h = (.ok (), q', h') := hM
    obtain ⟨p1, p2, p3, _, p4, _⟩ := hP
    rw [hM]
    rw [p1] at e1
    cases e1
    exact ⟨t1, t2.trans i.width, p4, p2.av.trans i.av, by rw [p3]; exact i.refd, i.le, i.all⟩
  | error e =>
    cases e with
    | badFree => exact hP.elim
    | badAlloc =>
      have hM : eX q h = (.error .badAlloc, q, h') := hM
      rw [hM]
      exact ⟨⟨rfl, (hB _ rfl).lt⟩, i.bad (hB _ rfl)⟩
    | prog e =>
      obtain ⟨q', hM⟩ : ∃ q', eX q h = (.error (.prog e), q', h') := hM
      rw [hM]
      obtain ⟨_, ⟨p1, _⟩ | ⟨p1, p2⟩⟩ := hP
      · rw [p1] at e1; cases e1
      · exact ⟨by rw [p1], p2⟩

theorem QInv.take {w r c : Nat} {h0 h : Heap} {l : List (BitVec 64)} {q : Queue} {sj : BitVec 64} (i : QInv w h0 l r c q h) :
    (l = [] ∧ takeX sj q h = (.ok .empty, q, h)) ∨
    ∃ y l' q' h', l = y :: l' ∧ takeX sj q h = (.ok (.got y.toInt), q', h') ∧ QInv w h0 l' r c q' h' := by
  cases l with
  | nil =>
    have : q.isEmpty = true := (Queue.isEmpty_rep i.rep).2 rfl
    exact Or.inl ⟨rfl, by unfold takeX; rw [if_pos this]⟩
  | cons y l =>
    have hne : ¬ q.isEmpty = true := fun hh => by
      have := (Queue.isEmpty_rep i.rep).1 hh
      cases this
    refine Or.inr ⟨y, l, ?_⟩
    have hn := i.rep.n_eq
    have hP := dequeueH_post (R := fun _ => False) (sj := sj) (q := q) (k := 0) ⟨i.width, _, i.rep⟩
      (by rw [hn]; simp) i.has
    obtain ⟨⟨v, q1⟩, e1, t1, t2, t3⟩ := Tot_iff.1 (Queue.dequeue_rep (l := l.map BitVec.toNat) i.rep sj)
    unfold takeX dequeueX
    rw [if_neg hne]
    generalize q.dequeueH sj h = z at hP
    rcases z with ⟨z, h'⟩
    cases z with
    | error e =>
      exfalso
      have no : Step (fun _ => False) h h' → ¬ h.failed < h'.failed := fun s f => by
        obtain ⟨_, _, f, _⟩ := s.why f
        exact f
      cases e with
      | badFree => exact hP.elim
      | badAlloc => exact no hP.1 hP.2
      | prog e =>
        obtain ⟨s, ⟨p1, _⟩ | ⟨_, p2⟩⟩ := hP
        · rw [p1] at e1; cases e1
        · exact no s p2
    | ok z =>
      obtain ⟨p1, p2, p3, _, p4, _⟩ := hP
      rw [p1] at e1
      cases e1
      refine ⟨q1, h', rfl, ?_, ?_⟩
      · simp only at t1 ⊢
        rw [t1]; simp
      · exact ⟨t2, t3.trans i.width, p4, p2.av.trans i.av, by rw [p3]; exact i.refd, i.le, i.all⟩

theorem growBack_ok {q : Queue} {l : List Nat} (h : q.Rep l) : ∃ q1, q.growBack = .ok q1 := by
  obtain ⟨q1, e, _⟩ := Tot_iff.1 (growBack_raw h)
  exact ⟨q1, e⟩

theorem growFront_ok {q : Queue} {l : List Nat} (h : q.Rep l) : ∃ q1, q.growFront = .ok q1 := by
  obtain ⟨q1, e, _⟩ := Tot_iff.1 (growFront_raw h)
  exact ⟨q1, e⟩

/-- the condition on the outcome of one operation -/
theorem QInv.op {w r c : Nat} {h0 h : Heap} {l : List (BitVec 64)} {q : Queue} {sj : BitVec 64} (o : QOp)
    (i : QInv w h0 l r c q h) (hf : o.fits w) (hl : l.length + 1 < 2 ^ 64) :
    match o.tryX sj q h with
    | (.ok x, q', h') => ∃ l' c', (∀ os rs, QOp.after (o :: os) (x :: rs) l = QOp.after os rs l') ∧ l'.length ≤ l.length + 1 ∧
        (x = .refused → q' = q ∧ h.failed < h'.failed) ∧ QInv w h0 l' (r + if x = .refused then 1 else 0) c' q' h'
    | (.error e, _, h') => e = .prog (.ub .nullDeref) ∧ h.failed < h'.failed := by
  cases o with
  | enqueue x =>
    have hs := i.store (l' := l ++ [x]) (enqueueX_matches sj x q h (growBack_ok i.rep))
      (enqueueH_post (k := 0) (fun _ _ => trivial) ⟨i.width, _, i.rep⟩ (by rw [i.rep.n_eq]; simpa using hl) i.has)
      ((Queue.enqueue_rep i.rep sj x (by rw [i.width]; exact hf) (by simpa using hl)).mono (by
        rintro q' ⟨a, b⟩; exact ⟨by simpa using a, b⟩)) (fun h' e => enqueueH_bad e)
    simp only [QOp.tryX]
    generalize catchX (enqueueX sj x) q h = z at hs
    rcases z with ⟨z | z, q', h'⟩
    · exact hs
    · cases z with
      | stored => exact ⟨l ++ [x], c, fun _ _ => rfl, by simp, by simp, hs⟩
      | refused =>
        obtain ⟨hq, c', hs⟩ := hs
        exact ⟨l, c', fun _ _ => rfl, by simp, fun _ => hq, hs⟩
      | got v => exact hs.elim
      | empty => exact hs.elim
  | enqueueL x =>
    have hs := i.store (l' := x :: l) (enqueueLX_matches sj x q h (growFront_ok i.rep))
      (enqueueLH_post (k := 0) (fun _ _ => trivial) ⟨i.width, _, i.rep⟩ (by rw [i.rep.n_eq]; simpa using hl) i.has)
      ((Queue.enqueueL_rep i.rep sj x (by rw [i.width]; exact hf) (by simpa using hl)).mono (by
        rintro q' ⟨a, b⟩; exact ⟨by simpa using a, b⟩)) (fun h' e => enqueueLH_bad e)
    simp only [QOp.tryX]
    generalize catchX (enqueueLX sj x) q h = z at hs
    rcases z with ⟨z | z, q', h'⟩
    · exact hs
    · cases z with
      | stored => exact ⟨x :: l, c, fun _ _ => rfl, by simp, by simp, hs⟩
      | refused =>
        obtain ⟨hq, c', hs⟩ := hs
        exact ⟨l, c', fun _ _ => rfl, by simp, fun _ => hq, hs⟩
      | got v => exact hs.elim
      | empty => exact hs.elim
  | dequeue =>
    simp only [QOp.tryX]
    rcases i.take (sj := sj) with ⟨hl0, e⟩ | ⟨y, l', q', h', hl', e, i'⟩
    · rw [e]
      subst hl0
      exact ⟨[], c, fun _ _ => rfl, by simp, by simp, i⟩
    · rw [e]
      subst hl'
      exact ⟨l', c, fun _ _ => by simp [QOp.after], by simp only [List.length_cons]; omega, by simp, i'⟩

theorem QInv.ops {w : Nat} {sj : BitVec 64} {h0 : Heap} (ops : List QOp) : ∀ {r c : Nat} {h : Heap} {l : List (BitVec 64)} {q : Queue},
    QInv w h0 l r c q h → (∀ o ∈ ops, o.fits w) → l.length + ops.length < 2 ^ 64 →
    match QOp.triesX sj ops q h with
    | (.ok res, q', h') => ∃ l' c', QOp.after ops res l = some l' ∧ l'.length ≤ l.length + ops.length ∧ QInv w h0 l' (r + res.count .refused) c' q' h'
    | (.error e, _, h') => e = .prog (.ub .nullDeref) ∧ h0.failed < h'.failed := by
  induction ops with
  | nil =>
    intro r c h l q i _ _
    exact ⟨l, c, rfl, by simp, i⟩
  | cons o os ih =>
    intro r c h l q i hf hl
    simp only [List.length_cons] at hl
    have h1 := i.op (sj := sj) o (hf o (by simp)) (by omega)
    unfold QOp.triesX
    rw [Queue.QM.bind_def]
    have hfl := i.refd
    generalize o.tryX sj q h = z at h1
    rcases z with ⟨z | x, q', h'⟩
    · exact ⟨h1.1, by have := h1.2; omega⟩
    · obtain ⟨l', c', e1, e2, -, i'⟩ := h1
      dsimp only
      rw [Queue.QM.bind_def]
      have h2 := ih i' (fun o ho => hf o (by simp [ho])) (by omega)
      generalize QOp.triesX sj os q' h' = z at h2
      rcases z with ⟨z | rs, q2, h2'⟩
      · exact h2
      · obtain ⟨l2, c2, e3, e4, i2⟩ := h2
        refine ⟨l2, c2, by rw [e1]; exact e3, by simp only [List.length_cons]; omega, ?_⟩
        rw [List.count_cons]
        have : r + (List.count QRes.refused rs + if (x == QRes.refused) = true then 1 else 0) =
            r + (if x = QRes.refused then 1 else 0) + List.count QRes.refused rs := by
          simp only [beq_iff_eq]; omega
        rw [this]
        exact i2

/-- C86: a program creates a queue of `w` bits, performs any operations on it, catching `std::bad_alloc` and going on, and
destroys it; memory can be refused at any moment. Then the results are those of a double-ended sequence in which an operation
that threw changed nothing; `is_empty` agrees at the end (so at every moment: every prefix of a history is a history);
an operation throws only when a request is refused; the destructor releases all blocks of the queue; what stays behind is at most one
24-byte `qblock` for each operation that threw (exactly one if the requests for `qblock`s are granted). Or a request is
refused and the program dereferences a null pointer: the results of `malloc` are not tested. -/
theorem C86_queue_survives_bad_alloc (w : Nat) (junk : Nat → Nat → BitVec 64) (sj : BitVec 64) (ops : List QOp) (h : Heap)
    (h1 : 1 ≤ w) (h2 : w ≤ 64) (hf : ∀ o ∈ ops, o.fits w) (hl : ops.length < 2 ^ 64) :
    match QOp.triesX sj ops (Queue.new w junk) h with
    | (.ok res, q, h') => ∃ final leaked, QOp.after ops res [] = some final ∧ (q.isEmpty = true ↔ final = []) ∧
        h.failed + res.count .refused ≤ h'.failed ∧
        leaked ≤ res.count .refused ∧ ((∀ k, h.av k qblockBlk = true) → leaked = res.count .refused) ∧
        ∃ q' h'', q.destroyH (q.cnt + 1) h' = (.ok q', h'') ∧
          ∀ b, h''.live b = h.live b + if b = ⟨.qblock, 24⟩ then leaked else 0
    | (.error e, _, h') => e = .prog (.ub .nullDeref) ∧ h.failed < h'.failed := by
  have i0 : QInv w h [] 0 0 (Queue.new w junk) h :=
    ⟨Queue.new_rep w junk h1 h2, rfl, by rw [liveQ_new]; exact Has.nil h, rfl, Nat.le_refl _, Nat.le_refl _, fun _ => rfl⟩
  have h3 := QInv.ops (sj := sj) ops i0 hf (by simpa using hl)
  generalize QOp.triesX sj ops (Queue.new w junk) h = z at h3
  rcases z with ⟨z | res, q, h'⟩
  · exact h3
  · obtain ⟨l, c, e1, -, i⟩ := h3
    rw [Nat.zero_add] at i
    refine ⟨l, c, e1, ?_, i.refd, i.le, i.all, ?_⟩
    · rw [Queue.isEmpty_rep i.rep]; simp
    · have hd := destroyH_post (R := fun _ => False) (k := 0) (fuel := q.cnt + 1) ⟨i.width, _, i.rep⟩ (Nat.le_refl _) i.has
      obtain ⟨qe, e3⟩ : ∃ qe, q.destroy (q.cnt + 1) = .ok qe := by
        obtain ⟨ids, bs, lo, hi, r, -⟩ := i.rep
        have hle : ids.length ≤ q.cnt := by
          have := List.Nodup.subperm r.nodup (l₂ := List.range q.cnt) (fun x hx => List.mem_range.2 (r.fresh x hx))
          simpa using this.length_le
        obtain ⟨qe, e1, _⟩ := Tot_iff.1 (destroy_aux ids q bs r.chain r.nodup r.dead r.sb)
        exact ⟨qe, whileM_fuel_mono _ _ _ _ _ e1 (by omega)⟩
      generalize q.destroyH (q.cnt + 1) h' = z at hd
      rcases z with ⟨z, h''⟩
      cases z with
      | error e =>
        exfalso
        have no : Step (fun _ => False) h' h'' → ¬ h'.failed < h''.failed := fun s f => by
          obtain ⟨_, _, f, _⟩ := s.why f
          exact f
        cases e with
        | badFree => exact hd.elim
        | badAlloc => exact no hd.1 hd.2
        | prog e =>
          obtain ⟨s, ⟨p1, _⟩ | ⟨_, p2⟩⟩ := hd
          · rw [p1] at e3; cases e3
          · exact no s p2
      | ok q' =>
        obtain ⟨_, _, _, a, _⟩ := hd
        refine ⟨q', h'', rfl, fun b => ?_⟩
        rw [a.live]
        have : (qblks w 0 ++ List.replicate c qblockBlk).count b = (List.replicate c qblockBlk).count b := by
          simp [qblks]
        rw [this, List.count_replicate]
        by_cases hb : b = ⟨.qblock, 24⟩
        · rw [if_pos hb, if_pos (by rw [hb]; rfl)]
        · rw [if_neg hb, if_neg (by simpa using Ne.symm hb)]

/-- C86, the object itself: an operation that throws leaves every member of the queue as it was. -/
theorem C86_refused_changes_nothing (w : Nat) (junk : Nat → Nat → BitVec 64) (sj : BitVec 64) (ops : List QOp) (o : QOp)
    (h h1 h2 : Heap) (q q' : Queue) (res : List QRes) (hw1 : 1 ≤ w) (hw2 : w ≤ 64) (hf : ∀ o ∈ ops, o.fits w) (ho : o.fits w)
    (hl : ops.length + 1 < 2 ^ 64) (he : QOp.triesX sj ops (Queue.new w junk) h = (.ok res, q, h1))
    (hr : o.tryX sj q h1 = (.ok .refused, q', h2)) : q' = q ∧ h1.failed < h2.failed := by
  have i0 : QInv w h [] 0 0 (Queue.new w junk) h :=
    ⟨Queue.new_rep w junk hw1 hw2, rfl, by rw [liveQ_new]; exact Has.nil h, rfl, Nat.le_refl _, Nat.le_refl _, fun _ => rfl⟩
  have h3 := QInv.ops (sj := sj) ops i0 hf (by simp only [List.length_nil]; omega)
  rw [he] at h3
  obtain ⟨l, c, e1, e2, i⟩ := h3
  have h4 := i.op (sj := sj) o ho (by simp only [List.length_nil] at e2; omega)
  rw [hr] at h4
  obtain ⟨_, _, _, _, hq, _⟩ := h4
  exact hq rfl

theorem enqueueX_noPacked (w : Nat) (junk : Nat → Nat → BitVec 64) (sj x : BitVec 64) (h : Heap)
    (ha : h.av = fun _ b => b.role != .packed) : ∃ h', h'.av = h.av ∧
    catchX (enqueueX sj x) (Queue.new w junk) h = (.ok .refused, Queue.new w junk, h') := by
  have hc : (Queue.new w junk).eOfs = QSIZ - 1 := rfl
  have e2 : roomBackX (Queue.new w junk) h = (.error .badAlloc, Queue.new w junk, (h.got qblockBlk).refused) := by
    unfold roomBackX
    rw [QM.bind_def, QM.self_def]
    dsimp only
    rw [if_pos hc, QM.bind_def]
    have c1 : h.av h.reqs qblockBlk = true := by rw [ha]; rfl
    have c2 : ¬ (h.got qblockBlk).av (h.got qblockBlk).reqs packedBlk = true := by
      show ¬ h.av (h.reqs + 1) packedBlk = true
      rw [ha]
      show ¬ (packedBlk.role != .packed) = true
      decide
    unfold requestX
    simp only [QM.bind_def, QM.mem, mallocB, newB, c1, c2, if_true, if_false, Role.fam, Bool.false_eq_true]
  refine ⟨(h.got qblockBlk).refused, rfl, ?_⟩
  unfold catchX enqueueX
  rw [QM.bind_def, e2]

/-- C86: the leak happens, and grows without bound: `k` calls of `enqueue` on a new queue while the `PackedArray`s are
refused leave `k` blocks of 24 bytes behind that nothing releases. -/
theorem C86_leak_unbounded (w : Nat) (junk : Nat → Nat → BitVec 64) (sj x : BitVec 64) (k : Nat) (h : Heap)
    (h1 : 1 ≤ w) (h2 : w ≤ 64) (hx : x.toNat < 2 ^ w) (hk : k < 2 ^ 64) (ha : h.av = fun _ b => b.role != .packed) :
    ∃ h' q' h'', QOp.triesX sj (List.replicate k (.enqueue x)) (Queue.new w junk) h =
        (.ok (List.replicate k .refused), Queue.new w junk, h') ∧
      (Queue.new w junk).destroyH ((Queue.new w junk).cnt + 1) h' = (.ok q', h'') ∧
      h''.live ⟨.qblock, 24⟩ = h.live ⟨.qblock, 24⟩ + k := by
  have key : ∀ k (h : Heap), (h.av = fun _ b => b.role != .packed) → ∃ h',
      QOp.triesX sj (List.replicate k (.enqueue x)) (Queue.new w junk) h = (.ok (List.replicate k .refused), Queue.new w junk, h') := by
    intro k
    induction k with
    | zero => intro h _; exact ⟨h, rfl⟩
    | succ k ih =>
      intro h ha
      obtain ⟨h', e1, e2⟩ := enqueueX_noPacked w junk sj x h ha
      obtain ⟨h'', e3⟩ := ih h' (e1.trans ha)
      refine ⟨h'', ?_⟩
      rw [List.replicate_succ, List.replicate_succ]
      unfold QOp.triesX
      rw [QM.bind_def]
      have e4 : QOp.tryX sj (.enqueue x) (Queue.new w junk) h = (.ok .refused, Queue.new w junk, h') := e2
      rw [e4]
      dsimp only
      rw [QM.bind_def, e3]
      rfl
  obtain ⟨h', e⟩ := key k h ha
  have := C86_queue_survives_bad_alloc w junk sj (List.replicate k (.enqueue x)) h h1 h2
    (fun o ho => by rw [List.eq_of_mem_replicate ho]; exact hx) (by simpa using hk)
  rw [e] at this
  obtain ⟨final, leaked, _, _, _, _, h3, q', h'', h4, h5⟩ := this
  refine ⟨h', q', h'', e, h4, ?_⟩
  rw [h5, if_pos (by rfl), h3 (fun k => by rw [ha]; rfl), List.count_replicate_self]

/-- a heap that refuses its second request only -/
def secondRefused : Heap := ⟨fun k _ => k != 1, 0, 0, fun _ => 0, 0, 0⟩

/-- The first `enqueue` throws (the `PackedArray` is refused); the queue is empty as before. -/
example : (QOp.triesX 0 [.enqueue 3, .dequeue] (Queue.new 9 fun _ _ => 77) secondRefused).1 = .ok [.refused, .empty] := rfl

/-- The hypotheses of `C86_refused_changes_nothing` are met. -/
example : ∃ q' h2, QOp.tryX 0 (.enqueue 3) (Queue.new 9 fun _ _ => 77) secondRefused = (.ok .refused, q', h2) ∧
    (q' = Queue.new 9 fun _ _ => 77) ∧ secondRefused.failed < h2.failed :=
  ⟨_, _, rfl, C86_refused_changes_nothing 9 (fun _ _ => 77) 0 [] (.enqueue 3) secondRefused secondRefused _ _ _ [] (by decide) (by decide)
    (by simp) (by simp [QOp.fits]) (by decide) rfl rfl⟩

example : (∀ o ∈ [QOp.enqueue 3, .enqueueL 4, .enqueue 5, .dequeue, .dequeue, .dequeue], o.fits 9) ∧
    QOp.after [.enqueue 3, .enqueueL 4, .enqueue 5, .dequeue, .dequeue, .dequeue]
      [.refused, .stored, .stored, .got 4, .got 5, .empty] [] = some [] :=
  ⟨by intro o ho; simp at ho; rcases ho with rfl | rfl | rfl | rfl <;> simp [QOp.fits], rfl⟩

/-- a result the specification excludes: the value of the operation that threw comes back -/
example : QOp.after [.enqueue 3, .dequeue] [.refused, .got 3] [] = none := rfl

example : ∃ h' q' h'', QOp.triesX 0 (List.replicate 1000 (.enqueue 3)) (Queue.new 9 fun _ _ => 77)
        ⟨fun _ b => b.role != .packed, 0, 0, fun _ => 0, 0, 0⟩ =
        (.ok (List.replicate 1000 .refused), Queue.new 9 fun _ _ => 77, h') ∧
      (Queue.new 9 fun _ _ => 77).destroyH ((Queue.new 9 fun _ _ => 77).cnt + 1) h' = (.ok q', h'') ∧
      h''.live ⟨.qblock, 24⟩ = 0 + 1000 :=
  C86_leak_unbounded 9 _ 0 3 1000 _ (by decide) (by decide) (by decide) (by decide) rfl

end Flbwt
