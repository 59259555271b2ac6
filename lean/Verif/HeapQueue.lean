import Verif.HeapModel
import Mathlib.Data.List.Basic
import Mathlib.Data.List.Perm.Subperm

/-!
# Queues and the heap (proof helpers)
-/

namespace Flbwt

theorem PackedArray.setValue_shape {sj : BitVec 64} {pa pa' : PackedArray} {i : Nat} {x : BitVec 64}
    (h : pa.setValue sj i x = .ok pa') : pa'.bits = pa.bits ∧ pa'.length = pa.length ∧ pa'.arr.size = pa.arr.size := by
  have : Tot (pa.setValue sj i x) (fun p => p = pa') := by rw [h]; rfl
  unfold PackedArray.setValue at this
  simp only [Tot_ite, Tot_bind, Mem.Tot_rd, Mem.Tot_wr] at this
  by_cases hc : 63 - (pa.bits * i % 2 ^ 64) % 64 + 1 ≥ pa.bits
  · obtain ⟨_, h2⟩ := this.1 hc
    obtain ⟨v, hv, h3⟩ := Tot_iff.1 h2
    have := h3.2
    rw [Tot_ok] at this
    subst this
    exact ⟨rfl, rfl, rfl⟩
  · obtain ⟨_, h2⟩ := this.2 hc
    obtain ⟨v, hv, _, h3⟩ := Tot_iff.1 h2
    obtain ⟨v2, hv2, _, h4⟩ := Tot_iff.1 h3
    obtain ⟨v3, hv3, _, h5⟩ := Tot_iff.1 h4
    rw [Tot_ok] at h5
    subst h5
    exact ⟨rfl, rfl, rfl⟩

theorem PackedArray.WF.of_shape {pa pa' : PackedArray} (w : pa.WF) (h1 : pa'.bits = pa.bits) (h2 : pa'.length = pa.length)
    (h3 : pa'.arr.size = pa.arr.size) : pa'.WF :=
  ⟨by rw [h1]; exact w.b1, by rw [h1]; exact w.b64, by rw [h1, h2]; exact w.nov, by rw [h1, h2, h3]; exact w.sz⟩

/-- number of live blocks below address `n` -/
def cntLive (h : Nat → Option QBlock) : Nat → Nat
  | 0 => 0
  | n + 1 => cntLive h n + if (h n).isSome then 1 else 0

theorem cntLive_congr {h h' : Nat → Option QBlock} {n : Nat} (e : ∀ a, a < n → (h a).isSome = (h' a).isSome) :
    cntLive h n = cntLive h' n := by
  induction n with
  | zero => rfl
  | succ n ih => simp only [cntLive]; rw [ih (fun a ha => e a (by omega)), e n (by omega)]

theorem cntLive_clear {h : Nat → Option QBlock} {n a : Nat} (ha : a < n) (hs : (h a).isSome) :
    cntLive (Queue.heapSet h a none) n + 1 = cntLive h n := by
  induction n with
  | zero => omega
  | succ n ih =>
    simp only [cntLive]
    by_cases han : a = n
    · subst han
      rw [cntLive_congr (h := Queue.heapSet h a none) (h' := h) (fun x hx => by
        have : x ≠ a := by omega
        simp [Queue.heapSet, this])]
      simp [Queue.heapSet, hs]
    · have := ih (by omega)
      have hna : n ≠ a := fun h => han h.symm
      simp only [Queue.heapSet, hna, if_false] at this ⊢
      omega

theorem cntLive_none {h : Nat → Option QBlock} {n : Nat} (e : ∀ a, h a = none) : cntLive h n = 0 := by
  induction n with
  | zero => rfl
  | succ n ih => simp [cntLive, ih, e]

/-- the number of live addresses of a list of live addresses without repetition that contains all of them -/
theorem cntLive_ids {h : Nat → Option QBlock} {n : Nat} {ids : List Nat} (nd : ids.Nodup) (lt : ∀ a ∈ ids, a < n)
    (iff : ∀ a, (h a).isSome = true ↔ a ∈ ids) : cntLive h n = ids.length := by
  induction n generalizing h ids with
  | zero =>
    cases ids with
    | nil => rfl
    | cons a t => have := lt a (by simp); omega
  | succ n ih =>
    simp only [cntLive]
    by_cases hn : n ∈ ids
    · rw [if_pos ((iff n).2 hn)]
      have h1 := ih (h := Queue.heapSet h n none) (ids := ids.erase n) (nd.erase n) (fun a ha => by
        have h2 := lt a (List.mem_of_mem_erase ha)
        have h3 : a ≠ n := by rintro rfl; exact (nd.not_mem_erase ha)
        omega) (fun a => by
          by_cases h3 : a = n
          · subst h3; simp [Queue.heapSet, nd.not_mem_erase]
          · simp [Queue.heapSet, h3, iff, List.mem_erase_of_ne h3])
      rw [cntLive_congr (h := Queue.heapSet h n none) (h' := h) (fun x hx => by
        have : x ≠ n := by omega
        simp [Queue.heapSet, this])] at h1
      rw [h1, List.length_erase_of_mem hn]
      have := List.length_pos_of_mem hn
      omega
    · rw [if_neg (fun hh => hn ((iff n).1 hh))]
      exact ih nd (fun a ha => by
        have h2 := lt a ha
        have h3 : a ≠ n := by rintro rfl; exact hn ha
        omega) iff

namespace Queue

/-- number of blocks the queue owns -/
def liveQ (q : Queue) : Nat := cntLive q.heap q.cnt

/-- a well-formed queue of elements of `w` bits -/
def QOk (w : Nat) (q : Queue) : Prop := q.w = w ∧ ∃ l, Rep q l

theorem Raw.live {q : Queue} {ids bs lo hi} (r : Raw q ids bs lo hi) : liveQ q = ids.length :=
  cntLive_ids r.nodup r.fresh (fun a => by
    constructor
    · intro h
      by_contra hn
      rw [r.dead a hn] at h
      cases h
    · intro h
      obtain ⟨k, hk⟩ := List.getElem?_of_mem h
      obtain ⟨b, p, _, h2, _⟩ := r.deref hk
      rw [h2]; rfl)

theorem QOk.blocks {w : Nat} {q : Queue} (h : QOk w q) : 1024 * liveQ q ≤ q.n + 2046 := by
  obtain ⟨_, l, ids, bs, lo, hi, r, hlo, he, hne, hl⟩ := h
  rw [r.live, r.cntn]
  by_cases hi' : ids = []
  · subst hi'; simp
  · have := hne hi'
    have := r.ord
    omega

theorem QOk.new (w : Nat) (junk : Nat → Nat → BitVec 64) (h1 : 1 ≤ w) (h2 : w ≤ 64) : QOk w (new w junk) :=
  ⟨rfl, _, new_rep w junk h1 h2⟩

theorem liveQ_new (w : Nat) (junk : Nat → Nat → BitVec 64) : liveQ (new w junk) = 0 := rfl

/-- `enqueue` of an arbitrary value -/
theorem enqueue_any {w : Nat} {q q' : Queue} {sj x : BitVec 64} (h : QOk w q) (hn : q.n + 1 < 2 ^ 64)
    (e : q.enqueue sj x = .ok q') :
    QOk w q' ∧ q'.n = q.n + 1 ∧ liveQ q' = liveQ q + if q.eOfs = QSIZ - 1 then 1 else 0 := by
  obtain ⟨hw, l, hrep⟩ := h
  have hlive := hrep
  obtain ⟨ids0, bs0, lo0, hi0, r0, hlo0, he0, hne0, hl0⟩ := hlive
  unfold enqueue at e
  obtain ⟨q1, e1, hw1, ids, bs, lo, hi, r, hids, hlo, hhi, hhi2, hl⟩ := Tot_iff.1 (growBack_raw hrep)
  have hq1n : q1.n = q.n := by
    have := r.cntn; have := r0.cntn
    have h3 : l.length = hi - lo := by rw [hl]; simp
    have h4 : l.length = hi0 - lo0 := by rw [hl0]; simp
    omega
  have hq1l : liveQ q1 = liveQ q + if q.eOfs = QSIZ - 1 then 1 else 0 := by
    unfold growBack at e1
    split at e1
    · rename_i hc
      rw [if_pos hc]
      cases hid : q.eb with
      | none =>
        simp only [hid] at e1
        cases e1
        simp only [liveQ, cntLive]
        rw [cntLive_congr (h' := q.heap) (fun a ha => by
          have : a ≠ q.cnt := by omega
          simp [heapSet, this])]
        simp [heapSet]
      | some e =>
        simp only [hid] at e1
        cases hdd : q.deref (some e) with
        | error x => rw [hdd] at e1; cases e1
        | ok blk =>
          rw [hdd] at e1
          cases e1
          have hsome : (q.heap e).isSome = true := by
            unfold Queue.deref at hdd
            simp only at hdd
            split at hdd <;> simp_all
          simp only [liveQ, cntLive]
          rw [cntLive_congr (h' := q.heap) (fun a ha => by
            have : a ≠ q.cnt := by omega
            by_cases hae : a = e
            · subst hae; simp [heapSet, this, hsome]
            · simp [heapSet, this, hae])]
          simp [heapSet]
    · rename_i hc
      cases e1
      rw [if_neg hc]; rfl
  rw [e1] at e
  have hlen : 0 < ids.length := List.length_pos_iff.2 hids
  have hbl := r.chain.1
  obtain ⟨en, hk⟩ : ∃ e, ids[ids.length - 1]? = some e := ⟨ids[ids.length-1], by simp⟩
  have heb : q1.eb = some en := by rw [r.eb, List.getLast?_eq_getElem?, hk]
  obtain ⟨b, p, hb, hp, bwf, bbits, blen⟩ := r.deref hk
  have hd : q1.deref (some en) = .ok ⟨p, ids[ids.length - 1 + 1]?, b⟩ := by simp [Queue.deref, hp]
  have hof := r.eofs hids
  have hidx : toIdx (q1.eOfs + 1) = .ok (hi - 1024 * (ids.length - 1)) := by
    unfold toIdx
    rw [hof, if_pos (by omega)]
    congr 1; omega
  change (q1.deref q1.eb >>= _) = _ at e
  rw [heb, hd] at e
  change (toIdx (q1.eOfs + 1) >>= _) = _ at e
  rw [hidx] at e
  change (b.setValue sj _ x >>= _) = _ at e
  cases hs : b.setValue sj (hi - 1024 * (ids.length - 1)) x with
  | error y => rw [hs] at e; cases e
  | ok b' =>
    rw [hs] at e
    cases e
    obtain ⟨s1, s2, s3⟩ := PackedArray.setValue_shape hs
    have hord := r.ord
    have hcn := r.cntn
    refine ⟨⟨hw1.trans hw, _, ids, bs.set (ids.length - 1) b', lo, hi + 1, ⟨?_, r.nodup, r.fresh, ?_, r.sb, ?_, ?_, r.w1, r.w2, ?_, ?_,
      r.sofs, ?_, ?_⟩, hlo, fun h => absurd h hids, fun _ => ⟨by omega, by omega⟩, rfl⟩, ?_, ?_⟩
    · exact r.chain.set r.nodup hk _ hp b'
    · intro a ha
      have : a ≠ en := by rintro rfl; exact ha (List.mem_of_getElem? hk)
      simp [heapSet, this, r.dead a ha]
    · simp [heb, ← r.eb]
    · intro b2 hb2
      rcases List.mem_or_eq_of_mem_set hb2 with hb2 | hb2
      · exact r.wf _ hb2
      · subst hb2; exact ⟨bwf.of_shape s1 s2 s3, s1.trans bbits, s2.trans blen⟩
    · simp only [r.cntn]
      rw [Nat.mod_eq_of_lt (by omega)]; omega
    · omega
    · intro _; simp only [hof]; omega
    · exact Nat.mod_lt _ (by decide)
    · simp only
      rw [Nat.mod_eq_of_lt (by omega)]; omega
    · rw [← hq1l]
      simp only [liveQ]
      apply cntLive_congr
      intro a _
      by_cases hae : a = en
      · subst hae; simp [heapSet, hp]
      · simp [heapSet, hae]

/-- `enqueue_l` of an arbitrary value -/
theorem enqueueL_any {w : Nat} {q q' : Queue} {sj x : BitVec 64} (h : QOk w q) (hn : q.n + 1 < 2 ^ 64)
    (e : q.enqueueL sj x = .ok q') :
    QOk w q' ∧ q'.n = q.n + 1 ∧ liveQ q' = liveQ q + if q.sOfs = 0 then 1 else 0 := by
  obtain ⟨hw, l, hrep⟩ := h
  have hlive := hrep
  obtain ⟨ids0, bs0, lo0, hi0, r0, hlo0, he0, hne0, hl0⟩ := hlive
  unfold enqueueL at e
  obtain ⟨q1, e1, hw1, ids, bs, lo, hi, r, hids, hlo1, hlo, hhi, hhi2, hl⟩ := Tot_iff.1 (growFront_raw hrep)
  have hq1n : q1.n = q.n := by
    have := r.cntn; have := r0.cntn
    have h3 : l.length = hi - lo := by rw [hl]; simp
    have h4 : l.length = hi0 - lo0 := by rw [hl0]; simp
    omega
  have hq1l : liveQ q1 = liveQ q + if q.sOfs = 0 then 1 else 0 := by
    unfold growFront at e1
    split at e1
    · rename_i hc
      rw [if_pos hc]
      cases hid : q.sb with
      | none =>
        simp only [hid] at e1
        cases e1
        simp only [liveQ, cntLive]
        rw [cntLive_congr (h' := q.heap) (fun a ha => by
          have : a ≠ q.cnt := by omega
          simp [heapSet, this])]
        simp [heapSet]
      | some e =>
        simp only [hid] at e1
        cases hdd : q.deref (some e) with
        | error x => rw [hdd] at e1; cases e1
        | ok blk =>
          rw [hdd] at e1
          cases e1
          have hsome : (q.heap e).isSome = true := by
            unfold Queue.deref at hdd
            simp only at hdd
            split at hdd <;> simp_all
          simp only [liveQ, cntLive]
          rw [cntLive_congr (h' := q.heap) (fun a ha => by
            have : a ≠ q.cnt := by omega
            by_cases hae : a = e
            · subst hae; simp [heapSet, this, hsome]
            · simp [heapSet, this, hae])]
          simp [heapSet]
    · rename_i hc
      cases e1
      rw [if_neg hc]; rfl
  rw [e1] at e
  have hlen : 0 < ids.length := List.length_pos_iff.2 hids
  have hbl := r.chain.1
  obtain ⟨en, hk⟩ : ∃ e, ids[0]? = some e := ⟨ids[0], by simp [hlen]⟩
  have heb : q1.sb = some en := by rw [r.sb, List.head?_eq_getElem?, hk]
  obtain ⟨b, p, hb, hp, bwf, bbits, blen⟩ := r.deref hk
  have hd : q1.deref (some en) = .ok ⟨p, ids[0 + 1]?, b⟩ := by simp [Queue.deref, hp]
  have hof := r.sofs
  have hidx : toIdx (q1.sOfs - 1) = .ok (lo - 1) := by
    unfold toIdx
    rw [hof, if_pos (by omega)]
    congr 1; omega
  change (q1.deref q1.sb >>= _) = _ at e
  rw [heb, hd] at e
  change (toIdx (q1.sOfs - 1) >>= _) = _ at e
  rw [hidx] at e
  change (b.setValue sj _ x >>= _) = _ at e
  cases hs : b.setValue sj (lo - 1) x with
  | error y => rw [hs] at e; cases e
  | ok b' =>
    rw [hs] at e
    cases e
    obtain ⟨s1, s2, s3⟩ := PackedArray.setValue_shape hs
    have hord := r.ord
    have hcn := r.cntn
    refine ⟨⟨hw1.trans hw, _, ids, bs.set 0 b', lo - 1, hi, ⟨?_, r.nodup, r.fresh, ?_, ?_, r.eb, ?_, r.w1, r.w2, ?_, by omega,
      ?_, r.eofs, ?_⟩, by omega, fun h => absurd h hids, fun _ => ⟨by omega, by omega⟩, rfl⟩, ?_, ?_⟩
    · exact r.chain.set r.nodup hk _ hp b'
    · intro a ha
      have : a ≠ en := by rintro rfl; exact ha (List.mem_of_getElem? hk)
      simp [heapSet, this, r.dead a ha]
    · simp [heb, ← r.sb]
    · intro b2 hb2
      rcases List.mem_or_eq_of_mem_set hb2 with hb2 | hb2
      · exact r.wf _ hb2
      · subst hb2; exact ⟨bwf.of_shape s1 s2 s3, s1.trans bbits, s2.trans blen⟩
    · simp only [r.cntn]
      rw [Nat.mod_eq_of_lt (by omega)]; omega
    · simp only [hof]; omega
    · exact Nat.mod_lt _ (by decide)
    · simp only
      rw [Nat.mod_eq_of_lt (by omega)]; omega
    · rw [← hq1l]
      simp only [liveQ]
      apply cntLive_congr
      intro a _
      by_cases hae : a = en
      · subst hae; simp [heapSet, hp]
      · simp [heapSet, hae]

theorem Rep.n_eq {q : Queue} {l : List Nat} (h : Rep q l) : q.n = l.length := by
  obtain ⟨ids, bs, lo, hi, r, _, _, _, hl⟩ := h
  rw [hl, r.cntn]; simp

theorem dequeue_any {w : Nat} {q : Queue} {sj : BitVec 64} {r : Int × Queue} (h : QOk w q) (hn : 1 ≤ q.n)
    (e : q.dequeue sj = .ok r) :
    QOk w r.2 ∧ r.2.n + 1 = q.n ∧ liveQ r.2 + (if q.sOfs + 1 = (QSIZ : Int) then 1 else 0) = liveQ q := by
  obtain ⟨hw, l, hrep⟩ := h
  have hnl := hrep.n_eq
  cases l with
  | nil => simp at hnl; omega
  | cons x l =>
    have hd := dequeue_rep hrep sj
    rw [e] at hd
    obtain ⟨_, h2, h3⟩ := hd
    refine ⟨⟨h3.trans hw, l, h2⟩, ?_, ?_⟩
    · have := h2.n_eq; simp at hnl; omega
    · obtain ⟨ids, bs, lo, hi, rw', -⟩ := hrep
      unfold dequeue at e
      cases hdd : q.deref q.sb with
      | error x => rw [hdd] at e; cases e
      | ok blk =>
      rw [hdd] at e
      change (toIdx q.sOfs >>= _) = _ at e
      cases hi' : toIdx q.sOfs with
      | error x => rw [hi'] at e; cases e
      | ok i =>
      rw [hi'] at e
      change (blk.b.getValue sj i >>= _) = _ at e
      cases hv : blk.b.getValue sj i with
      | error x => rw [hv] at e; cases e
      | ok v =>
      rw [hv] at e
      change (if q.sOfs + 1 = (QSIZ : Int) then _ else _) = _ at e
      split at e
      · rename_i hc
        rw [if_pos hc]
        cases hsb : q.sb with
        | none => rw [hsb] at hdd; cases hdd
        | some a =>
        have hsome : (q.heap a).isSome = true := by
          rw [hsb] at hdd
          unfold Queue.deref at hdd
          simp only at hdd
          split at hdd <;> simp_all
        have hlt : a < q.cnt := by
          apply rw'.fresh
          by_contra hn'
          rw [rw'.dead a hn'] at hsome
          cases hsome
        have hcl := cntLive_clear hlt hsome
        simp only [hsb] at e
        split at e
        · cases e
          exact hcl
        · rename_i nx hnx
          simp only [Option.getD_some] at e
          cases hd2 : Queue.deref { q with sb := some a, sOfs := q.sOfs + 1, n := decU64 q.n, heap := heapSet q.heap a none } (some nx) with
          | error x => rw [hd2] at e; cases e
          | ok nb =>
            rw [hd2] at e
            cases e
            have hs2 : (heapSet q.heap a none nx).isSome = true := by
              unfold Queue.deref at hd2
              simp only at hd2
              split at hd2 <;> simp_all
            simp only [liveQ]
            rw [← hcl]
            congr 1
            apply cntLive_congr
            intro y _
            by_cases hy : y = nx
            · subst hy; rw [hs2]; simp [heapSet]
            · simp [heapSet, hy]
      · rename_i hc
        cases e
        rw [if_neg hc]
        rfl

end Queue

/-! ## Blocks of the queues -/

/-- the blocks of `k` queue blocks of elements of `w` bits -/
def qblks (w k : Nat) : List Blk :=
  List.replicate k qblockBlk ++ (List.replicate k packedBlk ++ List.replicate k (wordsBlk QSIZ w))

theorem qblks_succ (w k : Nat) (L : List Blk) :
    (qblks w (k + 1) ++ L).Perm (wordsBlk QSIZ w :: packedBlk :: qblockBlk :: (qblks w k ++ L)) := by
  unfold qblks
  simp only [List.replicate_succ, List.cons_append, List.append_assoc]
  generalize List.replicate k qblockBlk = A
  generalize List.replicate k packedBlk = B
  generalize List.replicate k (wordsBlk QSIZ w) = C
  rw [List.perm_iff_count]
  intro x
  simp only [List.count_cons, List.count_append]
  omega

section
variable {R : Role → Prop} {h h0 : Heap} {L : List Blk}

/-- the roles of the blocks of a queue -/
def RQ (r : Role) : Prop := r = .qblock ∨ r = .packed ∨ r = .words ∨ r = .queue

theorem newQBlockH_post {w k : Nat} (hR : ∀ r, RQ r → R r) (a : Has h0 (qblks w k ++ L) h) :
    Post R h (.ok ()) (fun _ h' => Has h0 (qblks w (k + 1) ++ L) h' ∧ h'.peak = max h.peak h'.total) (newQBlockH w h) := by
  have hr1 : R qblockBlk.role := hR _ (Or.inl rfl)
  have hr2 : R packedBlk.role := hR _ (Or.inr (Or.inl rfl))
  have hr3 : R (wordsBlk QSIZ w).role := hR _ (Or.inr (Or.inr (Or.inl rfl)))
  unfold newQBlockH
  simp only [H.bind_def, mallocB, newB, nonNull, Role.fam, if_true]
  by_cases c1 : h.av h.reqs qblockBlk = true
  · simp only [c1, if_true]
    by_cases c2 : (h.got qblockBlk).av (h.got qblockBlk).reqs packedBlk = true
    · simp only [c2, if_true]
      by_cases c3 : ((h.got qblockBlk).got packedBlk).av ((h.got qblockBlk).got packedBlk).reqs (wordsBlk QSIZ w) = true
      · simp only [c3, if_true]
        refine ⟨rfl, ((got_step (by simp)).trans (got_step (by simp))).trans (got_step (by simp)), rfl, ?_, ?_⟩
        · exact (((a.got _).got _).got _).perm (qblks_succ w k L).symm
        · simp only [Heap.got, Heap.add]
          omega
      · simp only [c3, Bool.false_eq_true, if_false]
        exact ⟨((got_step (by simp)).trans (got_step (by simp))).trans (refused_step hr3 c3), Or.inr ⟨rfl, by simp [Heap.refused, Heap.got, Heap.add]⟩⟩
    · simp only [c2, Bool.false_eq_true, if_false]
      exact ⟨(got_step (by simp)).trans (refused_step hr2 c2), by simp [Heap.refused, Heap.got, Heap.add]⟩
  · simp only [c1, Bool.false_eq_true, if_false]
    have s1 : Step R h h.refused := refused_step hr1 c1
    by_cases c2 : h.refused.av h.refused.reqs packedBlk = true
    · simp only [c2, if_true]
      by_cases c3 : (h.refused.got packedBlk).av (h.refused.got packedBlk).reqs (wordsBlk QSIZ w) = true
      · simp only [c3, if_true]
        exact ⟨(s1.trans (got_step (by simp))).trans (got_step (by simp)), Or.inr ⟨rfl, by simp [Heap.refused, Heap.got, Heap.add]⟩⟩
      · simp only [c3, Bool.false_eq_true, if_false]
        exact ⟨(s1.trans (got_step (by simp))).trans (refused_step hr3 c3), Or.inr ⟨rfl, by simp [Heap.refused, Heap.got, Heap.add]; omega⟩⟩
    · simp only [c2, Bool.false_eq_true, if_false]
      exact ⟨s1.trans (refused_step hr2 c2), by simp [Heap.refused]; omega⟩

theorem freeQBlockH_post {w k : Nat} (a : Has h0 (qblks w (k + 1) ++ L) h) :
    Post R h (.ok ()) (fun _ h' => Has h0 (qblks w k ++ L) h' ∧ h'.peak = h.peak) (freeQBlockH w h) := by
  unfold freeQBlockH
  have a := a.perm (qblks_succ w k L)
  refine Post.seq (freeB_post (by simp) a) ?_
  rintro h1 ⟨a1, p1⟩ _ _
  refine Post.seq (freeB_post (by simp) a1) ?_
  rintro h2 ⟨a2, p2⟩ _ _
  refine (freeB_post (by simp) a2).mono ?_
  rintro _ h3 _ _ _ ⟨a3, p3⟩
  exact ⟨a3, by omega⟩

theorem whenH_post {c : Prop} [Decidable c] {x : H Unit} {Q : Unit → Heap → Prop} (h1 : c → Post R h (.ok ()) Q (x h))
    (h2 : ¬ c → Q () h) : Post R h (.ok ()) Q (whenH c x h) := by
  unfold whenH
  by_cases hc : c
  · rw [if_pos hc]; exact h1 hc
  · rw [if_neg hc]; exact Post.pure (h2 hc)

open Queue

/-- `enqueue`: the queue owns one more block if a new one was needed. -/
theorem enqueueH_post {w k : Nat} {q : Queue} {sj x : BitVec 64} (hR : ∀ r, RQ r → R r) (hq : QOk w q) (hn : q.n + 1 < 2 ^ 64)
    (a : Has h0 (qblks w (liveQ q + k) ++ L) h) :
    Post R h (q.enqueue sj x) (fun q' h' => (QOk w q' ∧ q'.n = q.n + 1) ∧ Has h0 (qblks w (liveQ q' + k) ++ L) h' ∧
      h'.peak ≤ max h.peak h'.total) (q.enqueueH sj x h) := by
  unfold Queue.enqueueH
  refine Post.seq (whenH_post (Q := fun _ h' => Has h0 (qblks w (liveQ q + (if q.eOfs = QSIZ - 1 then 1 else 0) + k) ++ L) h' ∧
    h'.peak ≤ max h.peak h'.total) ?_ ?_) ?_
  · intro hc
    have := newQBlockH_post hR a
    rw [hq.1]
    refine this.mono ?_
    rintro _ h1 _ _ _ ⟨a1, p1⟩
    refine ⟨?_, by omega⟩
    rwa [if_pos hc, show liveQ q + 1 + k = liveQ q + k + 1 by omega]
  · intro hc
    rw [if_neg hc]
    exact ⟨a, by omega⟩
  · rintro h1 ⟨a1, p1⟩ _ _
    refine Post.lift ?_
    intro q' e
    obtain ⟨o1, o2, o3⟩ := enqueue_any hq hn e
    refine ⟨⟨o1, o2⟩, ?_, p1⟩
    rw [o3]; exact a1

theorem enqueueLH_post {w k : Nat} {q : Queue} {sj x : BitVec 64} (hR : ∀ r, RQ r → R r) (hq : QOk w q) (hn : q.n + 1 < 2 ^ 64)
    (a : Has h0 (qblks w (liveQ q + k) ++ L) h) :
    Post R h (q.enqueueL sj x) (fun q' h' => (QOk w q' ∧ q'.n = q.n + 1) ∧ Has h0 (qblks w (liveQ q' + k) ++ L) h' ∧
      h'.peak ≤ max h.peak h'.total) (q.enqueueLH sj x h) := by
  unfold Queue.enqueueLH
  refine Post.seq (whenH_post (Q := fun _ h' => Has h0 (qblks w (liveQ q + (if q.sOfs = 0 then 1 else 0) + k) ++ L) h' ∧
    h'.peak ≤ max h.peak h'.total) ?_ ?_) ?_
  · intro hc
    have := newQBlockH_post hR a
    rw [hq.1]
    refine this.mono ?_
    rintro _ h1 _ _ _ ⟨a1, p1⟩
    refine ⟨?_, by omega⟩
    rwa [if_pos hc, show liveQ q + 1 + k = liveQ q + k + 1 by omega]
  · intro hc
    rw [if_neg hc]
    exact ⟨a, by omega⟩
  · rintro h1 ⟨a1, p1⟩ _ _
    refine Post.lift ?_
    intro q' e
    obtain ⟨o1, o2, o3⟩ := enqueueL_any hq hn e
    refine ⟨⟨o1, o2⟩, ?_, p1⟩
    rw [o3]; exact a1

theorem dequeueH_post {w k : Nat} {q : Queue} {sj : BitVec 64} (hq : QOk w q) (hn : 1 ≤ q.n)
    (a : Has h0 (qblks w (liveQ q + k) ++ L) h) :
    Post R h (q.dequeue sj) (fun r h' => (QOk w r.2 ∧ r.2.n + 1 = q.n) ∧ Has h0 (qblks w (liveQ r.2 + k) ++ L) h' ∧
      h'.peak ≤ h.peak) (q.dequeueH sj h) := by
  unfold Queue.dequeueH
  refine Post.liftThen ?_
  intro r e
  obtain ⟨o1, o2, o3⟩ := dequeue_any hq hn e
  refine Post.seq (whenH_post (Q := fun _ h' => Has h0 (qblks w (liveQ r.2 + k) ++ L) h' ∧ h'.peak ≤ h.peak) ?_ ?_) ?_
  · intro hc
    rw [if_pos hc] at o3
    rw [← o3, show liveQ r.2 + 1 + k = liveQ r.2 + k + 1 by omega] at a
    rw [hq.1]
    refine (freeQBlockH_post a).mono ?_
    rintro _ h1 _ _ _ ⟨a1, p1⟩
    exact ⟨a1, by omega⟩
  · intro hc
    rw [if_neg hc] at o3
    rw [← o3] at a
    exact ⟨a, by omega⟩
  · rintro h1 ⟨a1, p1⟩ _ _
    exact Post.pure ⟨⟨o1, o2⟩, a1, p1⟩

/-- The destructor releases all blocks. -/
theorem destroyH_post {w k fuel : Nat} {q : Queue} (hq : QOk w q) (hfuel : q.cnt + 1 ≤ fuel)
    (a : Has h0 (qblks w (liveQ q + k) ++ L) h) :
    Post R h (q.destroy fuel) (fun _ h' => Has h0 (qblks w k ++ L) h' ∧ h'.peak ≤ h.peak) (q.destroyH fuel h) := by
  obtain ⟨hw, l, hrep⟩ := hq
  obtain ⟨ids, bs, lo, hi, r, -⟩ := hrep
  have hle : ids.length ≤ q.cnt := by
    have := List.Nodup.subperm r.nodup (l₂ := List.range q.cnt) (fun x hx => List.mem_range.2 (r.fresh x hx))
    simpa using this.length_le
  have hd := destroy_aux ids q bs r.chain r.nodup r.dead r.sb
  obtain ⟨qe, e1, e2⟩ := Tot_iff.1 hd
  have e3 : q.destroy fuel = .ok qe := whileM_fuel_mono _ _ _ _ _ e1 (by omega)
  have key : Post R h (q.destroy fuel) (fun q' h' => q'.w = w ∧ q'.cnt = q.cnt ∧ Has h0 (qblks w (liveQ q' + k) ++ L) h' ∧ h'.peak ≤ h.peak)
      (q.destroyH fuel h) := by
    unfold Queue.destroy Queue.destroyH
    refine whileH_post (I := fun q' h' => q'.w = w ∧ q'.cnt = q.cnt ∧ (∀ x, (q'.heap x).isSome = true → x < q.cnt) ∧
      Has h0 (qblks w (liveQ q' + k) ++ L) h' ∧ h'.peak ≤ h.peak) _ _ _ ⟨hw, rfl, ?_, a, Nat.le_refl _⟩ ?_
    · intro x hx
      apply r.fresh
      by_contra hn
      rw [r.dead x hn] at hx
      cases hx
    · rintro q1 h1 ⟨i1, i2, i3, i4, i5⟩ _ _
      unfold Queue.destroyStepH
      cases hsb : q1.sb with
      | none => exact Post.pure ⟨i1, i2, i4, i5⟩
      | some x =>
        simp only
        refine Post.liftBind ?_
        intro blk eb
        have hsome : (q1.heap x).isSome = true := by
          unfold Queue.deref at eb
          simp only at eb
          split at eb <;> simp_all
        have hcl := cntLive_clear (n := q1.cnt) (by rw [i2]; exact i3 x hsome) hsome
        have hl1 : liveQ q1 = cntLive (heapSet q1.heap x none) q1.cnt + 1 := hcl.symm
        rw [hl1, show cntLive (heapSet q1.heap x none) q1.cnt + 1 + k = cntLive (heapSet q1.heap x none) q1.cnt + k + 1 by omega] at i4
        rw [i1]
        refine Post.seq (freeQBlockH_post i4) ?_
        rintro h2 ⟨a2, p2⟩ _ _
        refine Post.pure ⟨rfl, i2, ?_, a2, by omega⟩
        intro y hy
        by_cases hyx : y = x
        · subst hyx; simp [heapSet] at hy
        · simp [heapSet, hyx] at hy; exact i3 y hy
  refine key.mono ?_
  rintro q' h' e' _ _ ⟨-, -, a', p'⟩
  rw [e3] at e'
  cases e'
  have : liveQ qe = 0 := cntLive_none e2
  rw [this, Nat.zero_add] at a'
  exact ⟨a', p'⟩

end
end Flbwt
