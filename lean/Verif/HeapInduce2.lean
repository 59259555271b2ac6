import Verif.HeapInduce

/-!
# `induce_bwt_XXbit` and the heap (proof helpers)
-/

namespace Flbwt

section
variable {R : Role → Prop} {h h0 : Heap} {L : List Blk} {w P K K0 : Nat} {z : Nat → Nat} {s : IndSt}

/-- neither the text nor the container -/
def Plain (b : Blk) : Prop := b.role ≠ .text ∧ b.role ≠ .container

theorem newB_le {f : Fam} {b : Blk} (hR : R b.role) (hb : Plain b) (a : Has h0 L h) (hp : h.peak ≤ P) (hP : h0.total + lbytes (b :: L) ≤ P)
    (hf : b.role.fam = f := by rfl) :
    Post R h (.ok ()) (fun _ h' => Has h0 (b :: L) h' ∧ h'.peak ≤ P) (newB f b h) := by
  refine (newB_post hR hb a hf).mono ?_
  rintro _ h' _ _ _ ⟨a1, p1⟩
  refine ⟨a1, ?_⟩
  have := a.total
  rw [lbytes_cons] at hP
  unfold lbytes at hP
  omega

theorem mallocUse_le {b : Blk} (hR : R b.role) (hb : Plain b) (a : Has h0 L h) (hp : h.peak ≤ P) (hP : h0.total + lbytes (b :: L) ≤ P)
    (hf : b.role.fam = .c := by rfl) :
    Post R h (.ok ()) (fun _ h' => Has h0 (b :: L) h' ∧ h'.peak ≤ P) ((mallocB b >>= nonNull) h) := by
  refine (mallocUse_post hR hb a hf).mono ?_
  rintro _ h' _ _ _ ⟨a1, p1⟩
  refine ⟨a1, ?_⟩
  have := a.total
  rw [lbytes_cons] at hP
  unfold lbytes at hP
  omega

theorem freeB_le {f : Fam} {b : Blk} (hb : Plain b) (a : Has h0 (b :: L) h) (hp : h.peak ≤ P)
    (hf : b.role.fam = f := by rfl) :
    Post R h (.ok ()) (fun _ h' => Has h0 L h' ∧ h'.peak ≤ P) (freeB f b h) := by
  refine (freeB_post hb a hf).mono ?_
  rintro _ h' _ _ _ ⟨a1, p1⟩
  exact ⟨a1, by omega⟩

theorem newAllH_le : ∀ (bs : List Blk) {L : List Blk} {h : Heap}, (∀ b ∈ bs, R b.role ∧ Plain b ∧ b.role.fam = .arr) → Has h0 L h → h.peak ≤ P →
    h0.total + lbytes (bs ++ L) ≤ P → Post R h (.ok ()) (fun _ h' => Has h0 (bs ++ L) h' ∧ h'.peak ≤ P) (newAllH bs h)
  | [], L, h, _, a, hp, _ => Post.pure ⟨a, hp⟩
  | b :: bs, L, h, hb, a, hp, hP => by
    unfold newAllH
    rw [List.cons_append, lbytes_cons, lbytes_append] at hP
    refine Post.seq (newB_le (P := P) (hb b (by simp)).1 (hb b (by simp)).2.1 a hp (by rw [lbytes_cons]; omega) (hb b (by simp)).2.2) ?_
    rintro h1 ⟨a1, p1⟩ _ _
    refine (newAllH_le bs (fun x hx => hb x (by simp [hx])) a1 p1 (by rw [lbytes_append, lbytes_cons]; omega)).mono ?_
    rintro _ h2 _ _ _ ⟨a2, p2⟩
    exact ⟨a2.perm List.perm_middle, p2⟩

theorem freeAllH_le : ∀ (bs : List Blk) {L : List Blk} {h : Heap}, (∀ b ∈ bs, Plain b ∧ b.role.fam = .arr) → Has h0 (bs ++ L) h → h.peak ≤ P →
    Post R h (.ok ()) (fun _ h' => Has h0 L h' ∧ h'.peak ≤ P) (freeAllH bs h)
  | [], L, h, _, a, hp => Post.pure ⟨a, hp⟩
  | b :: bs, L, h, hb, a, hp => by
    unfold freeAllH
    refine Post.seq (freeB_le (P := P) (hb b (by simp)).1 a hp (hb b (by simp)).2) ?_
    rintro h1 ⟨a1, p1⟩ _ _
    exact freeAllH_le bs (fun x hx => hb x (by simp [hx])) a1 p1

theorem newQueuesLoop : ∀ (k lo : Nat) {L : List Blk} {h : Heap}, R .queue → Has h0 L h → h.peak ≤ P →
    h0.total + (k * queueBlk.bytes + lbytes L) ≤ P →
    Post R h (.ok ()) (fun _ h' => Has h0 (List.replicate k queueBlk ++ L) h' ∧ h'.peak ≤ P)
      (loopUpH lo k () (fun _ _ => newB .obj queueBlk) h)
  | 0, lo, L, h, _, a, hp, _ => Post.pure ⟨a, hp⟩
  | k + 1, lo, L, h, hR, a, hp, hP => by
    unfold loopUpH
    rw [Nat.add_mul, Nat.one_mul] at hP
    refine Post.seq (newB_le (P := P) hR (by simp [Plain]) a hp (by rw [lbytes_cons]; omega)) ?_
    rintro h1 ⟨a1, p1⟩ _ _
    refine (newQueuesLoop k (lo + 1) hR a1 p1 (by rw [lbytes_cons]; omega)).mono ?_
    rintro _ h2 _ _ _ ⟨a2, p2⟩
    refine ⟨a2.perm ?_, p2⟩
    rw [List.replicate_succ, List.cons_append]
    exact List.perm_middle

theorem newQueuesH_le {k : Nat} (hR : R .queue) (a : Has h0 L h) (hp : h.peak ≤ P) (hP : h0.total + (k * queueBlk.bytes + lbytes L) ≤ P) :
    Post R h (.ok ()) (fun _ h' => Has h0 (List.replicate k queueBlk ++ L) h' ∧ h'.peak ≤ P) (newQueuesH k h) :=
  newQueuesLoop k 0 hR a hp hP

theorem queue_cons (w j k : Nat) (L : List Blk) :
    (qblks w j ++ (List.replicate (k + 1) queueBlk ++ L)).Perm (queueBlk :: (qblks w j ++ (List.replicate k queueBlk ++ L))) := by
  rw [List.replicate_succ, List.cons_append]
  exact List.perm_middle

/-- the total after a row was deleted -/
theorem tot_delete {s' : IndSt} {t : Nat} (f : Queue → Nat) (ht : t < 3) (h1 : (s'.q t).size = 0)
    (h2 : ∀ t', t' ≠ t → s'.q t' = s.q t') : tot f s' + rowSum f (s.q t) = tot f s := by
  have := sumTo_upd (g := fun t => rowSum f (s.q t)) (g' := fun t => rowSum f (s'.q t)) ht (fun x hx => by rw [h2 x hx])
  have h0 : rowSum f (s'.q t) = 0 := by unfold rowSum; rw [h1]; rfl
  rw [h0] at this
  exact this

theorem deleteQueuesH_post {t : Nat} (ht : t < 3) (hz : z t = 258) (o : Own h0 (List.replicate 258 queueBlk ++ L) w z P K s h) :
    Post R h (deleteQueues t s) (fun s' h' => Own h0 L w (fun t' => if t' = t then 0 else z t') P K s' h') (deleteQueuesH t s h) := by
  have hsz : (s.q t).size = 258 := (o.size t ht).trans hz
  let lv : Nat → Nat := sumTo (fun c => Queue.liveQ ((s.q t).data c))
  have hrow : lv 258 = rowSum Queue.liveQ (s.q t) := by unfold rowSum; rw [hsz]
  have htl : rowSum Queue.liveQ (s.q t) ≤ tot Queue.liveQ s := le_sumTo (g := fun t => rowSum Queue.liveQ (s.q t)) ht
  have hlv : ∀ d c, c + d = 258 → lv c ≤ lv 258 := by
    intro d
    induction d with
    | zero => intro c hc; rw [show c = 258 by omega]; exact Nat.le_refl _
    | succ d ih =>
      intro c hc
      refine Nat.le_trans ?_ (ih (c + 1) (by omega))
      show lv c ≤ lv c + _
      omega
  unfold deleteQueues deleteQueuesH
  refine Post.bind (loopUpH_post (I := fun c _ h' => Has h0 (qblks w (tot Queue.liveQ s - lv c) ++
    (List.replicate (258 - c) queueBlk ++ L)) h' ∧ h'.peak ≤ P) 0 258 () ⟨o.has, o.peak⟩ ?_) ?_
  · rintro c _ h1 _ hc ⟨a1, p1⟩ _ _
    refine Post.liftBind ?_
    intro q eq
    obtain ⟨hcs, rfl⟩ := rd_facts eq
    have hl1 := hlv (258 - (c + 1)) (c + 1) (by omega)
    have hl2 : lv (c + 1) = lv c + Queue.liveQ ((s.q t).data c) := rfl
    refine Post.bind (destroyH_post (k := tot Queue.liveQ s - lv (c + 1)) (o.ok t ht c hcs) (Nat.le_refl _) (by
      rw [show Queue.liveQ ((s.q t).data c) + (tot Queue.liveQ s - lv (c + 1)) = tot Queue.liveQ s - lv c by omega]
      exact a1)) ?_
    rintro q' h2 _ ⟨a2, p2⟩ _ _
    rw [show 258 - c = 258 - (c + 1) + 1 by omega] at a2
    exact freeB_le (by simp [Plain]) (a2.perm (queue_cons _ _ _ _)) (by omega)
  · rintro _ h1 _ ⟨a1, p1⟩ _ _
    refine Post.pure ?_
    have htd : ∀ f, tot f { s with q := fun t' => if t' = t then ⟨0, (s.q t).data⟩ else s.q t' } + rowSum f (s.q t) = tot f s :=
      fun f => tot_delete f ht (by simp) (fun t' ht' => by simp [ht'])
    refine ⟨?_, ?_, ?_, ?_, p1⟩
    · intro t' ht' c hc
      by_cases htt : t' = t
      · subst htt; simp at hc
      · simp only [if_neg htt] at hc ⊢; exact o.ok t' ht' c hc
    · intro t' ht'
      by_cases htt : t' = t
      · subst htt; simp
      · simp only [if_neg htt]; exact o.size t' ht'
    · have h3 := htd Queue.liveQ
      have h4 : tot Queue.liveQ s - lv (0 + 258) =
          tot Queue.liveQ { s with q := fun t' => if t' = t then ⟨0, (s.q t).data⟩ else s.q t' } := by
        rw [Nat.zero_add]; omega
      rw [h4] at a1
      exact a1
    · have h3 := htd Queue.n
      have h4 := o.items
      omega

/-- replacing the blocks that do not belong to the queues -/
theorem Own.frame {L' : List Blk} {h' : Heap} (o : Own h0 L w z P K s h)
    (f : Has h0 (qblks w (tot Queue.liveQ s) ++ L') h') (hp : h'.peak ≤ P) : Own h0 L' w z P K s h' :=
  ⟨o.ok, o.size, f, o.items, hp⟩

theorem perm_front (A B C : List Blk) : (A ++ (B ++ C)).Perm (B ++ (A ++ C)) := by
  rw [← List.append_assoc, ← List.append_assoc]
  exact List.Perm.append_right C List.perm_append_comm

theorem rowSum_new (f : Queue → Nat) (w : Nat) (junk : Nat → Nat → Nat → BitVec 64) (hf : ∀ j, f (Queue.new w j) = 0) :
    rowSum f (newQueues w junk) = 0 := by
  unfold rowSum newQueues
  rw [sumTo_congr (g' := fun _ => 0) (fun c _ => hf _)]
  exact sumTo_zero

theorem tot_qb (o : Own h0 L w z P K s h) (hK : K ≤ K0) (hz : ∀ t, t < 3 → z t ≤ 258) :
    tot Queue.liveQ s * qbytes w ≤ qmax K0 * qbytes w := by
  apply Nat.mul_le_mul_right
  have h1 := tot_lin o.ok (fun t ht => by rw [o.size t ht]; exact hz t ht)
  have := o.items
  unfold qmax
  rw [Nat.le_div_iff_mul_le (by omega)]
  omega

/-- the roles of the blocks of `induce_bwt_XXbit` -/
def RI (r : Role) : Prop := RQ r ∨ r = .bwt ∨ r = .result

theorem arrBlks_mem {S : Type} [SaBlocks S] {r : Role} {len : Nat} {b : Blk} (h : b ∈ arrBlks S r len) : b.role = r := by
  unfold arrBlks at h
  obtain ⟨p, _, rfl⟩ := List.mem_map.1 h
  rfl

theorem induceBwtH_post {S : Type} [SaStore S] [SaBlocks S] {qj : Nat → Nat → Nat → Nat → BitVec 64} {bj : Nat → Nat} {sj : BitVec 64}
    {fuel : Nat} {buf : Mem Nat} {sa : S} {ct : Container} (hR : ∀ r, RI r → R r) (hw1 : 1 ≤ ct.bwpWidth) (hw2 : ct.bwpWidth ≤ 64)
    (hN : ct.numSubs + 1 < 2 ^ 63) (a : Has h0 (arrBlks S .sa (ct.numSubs + 2) ++ L) h) (hp : h.peak ≤ P)
    (hP : h0.total + lbytes L + lbytes (arrBlks S .sa (ct.numSubs + 2)) + 774 * queueBlk.bytes + (bwtBlk ct.n).bytes + resultBlk.bytes +
      qmax (ct.numSubs + 1) * qbytes ct.bwpWidth ≤ P) :
    Post R h (induceBwt qj bj sj fuel buf sa ct) (fun _ h' => Has h0 (resultBlk :: bwtBlk ct.n :: L) h' ∧ h'.peak ≤ P)
      (induceBwtH qj bj sj fuel buf sa ct h) := by
  have hRq : ∀ r, RQ r → R r := fun r hr => hR r (Or.inl hr)
  have hq0 : R .queue := hRq _ (Or.inr (Or.inr (Or.inr rfl)))
  have hqb : queueBlk.bytes = 56 := rfl
  have hbb : (bwtBlk ct.n).bytes = ct.n + 1 := rfl
  have hrb : resultBlk.bytes = 16 := rfl
  rw [hqb, hbb, hrb] at hP
  unfold induceBwt induceBwtH
  generalize hA : arrBlks S .sa (ct.numSubs + 2) = A at *
  have hAr : ∀ b ∈ A, Plain b ∧ b.role.fam = .arr := by
    intro b hb
    rw [← hA] at hb
    exact ⟨by simp [Plain, arrBlks_mem hb], by rw [arrBlks_mem hb]; rfl⟩
  refine Post.seq (newQueuesH_le (P := P) hq0 a hp (by rw [lbytes_append]; omega)) ?_
  rintro h1 ⟨a1, p1⟩ _ _
  have hrep : (List.replicate (3 * 258) queueBlk) =
    List.replicate 258 queueBlk ++ (List.replicate 258 queueBlk ++ List.replicate 258 queueBlk) := by
    rw [List.replicate_append_replicate, List.replicate_append_replicate]
  generalize hQ : List.replicate 258 queueBlk = Q at hrep
  have hQb : lbytes Q = 258 * 56 := by rw [← hQ, lbytes_replicate]
  rw [hrep] at a1
  have B1 : Bnd h0 ((Q ++ (Q ++ Q)) ++ (A ++ L)) ct.bwpWidth (fun _ => 258) P (ct.numSubs + 1) := by
    refine ⟨fun _ _ => Nat.le_refl _, ?_, hN⟩
    simp only [lbytes_append, hQb]
    omega
  have B2 : Bnd h0 (bwtBlk ct.n :: ((Q ++ (Q ++ Q)) ++ L)) ct.bwpWidth (fun _ => 258) P (ct.numSubs + 1) := by
    refine ⟨fun _ _ => Nat.le_refl _, ?_, hN⟩
    simp only [lbytes_cons, lbytes_append, hQb]
    omega
  have o1 : Own h0 ((Q ++ (Q ++ Q)) ++ (A ++ L)) ct.bwpWidth (fun _ => 258) P 0
      ⟨fun t => newQueues ct.bwpWidth (qj t), ct.M2, ct.M3, ct.C2, ⟨ct.n + 1, fun i => bj i % 256⟩, none⟩ h1 := by
    have ht : ∀ f : Queue → Nat, (∀ j, f (Queue.new ct.bwpWidth j) = 0) → tot f ⟨fun t => newQueues ct.bwpWidth (qj t), ct.M2, ct.M3,
        ct.C2, ⟨ct.n + 1, fun i => bj i % 256⟩, none⟩ = 0 := by
      intro f hf
      unfold tot
      rw [sumTo_congr (g' := fun _ => 0) (fun c _ => rowSum_new f _ _ hf)]
      exact sumTo_zero
    refine ⟨fun t _ c _ => Queue.QOk.new _ _ hw1 hw2, fun _ _ => rfl, ?_, ?_, p1⟩
    · rw [ht _ (fun j => Queue.liveQ_new _ j)]; exact a1
    · rw [ht _ (fun j => rfl)]; exact Nat.le_refl _
  refine Post.bind (seedH_post hRq B1 o1) ?_
  rintro s2 h2 _ ⟨o2, n2⟩ _ _
  have q2 := tot_qb o2 (Nat.le_refl _) B1.z
  have hs2 := o2.has
  refine Post.seq (freeAllH_le (P := P) (L := qblks ct.bwpWidth (tot Queue.liveQ s2) ++ ((Q ++ (Q ++ Q)) ++ L)) A hAr
    (hs2.perm ?_) o2.peak) ?_
  · rw [List.perm_iff_count]
    intro x
    simp only [List.count_append]
    omega
  rintro h3 ⟨a3, p3⟩ _ _
  refine Post.seq (newB_le (P := P) (b := bwtBlk ct.n) (hR _ (Or.inr (Or.inl rfl))) (by simp [Plain]) a3 p3 (by
    simp only [lbytes_cons, lbytes_append, hQb, lbytes_qblks]; omega)) ?_
  rintro h4 ⟨a4, p4⟩ _ _
  have o4 : Own h0 (bwtBlk ct.n :: ((Q ++ (Q ++ Q)) ++ L)) ct.bwpWidth (fun _ => 258) P (ct.numSubs + 1) s2 h4 :=
    o2.frame (a4.perm List.perm_middle.symm) p4
  refine Post.liftBind ?_
  intro s5 e5
  refine Post.liftBind ?_
  intro s6 e6
  have o6 := o4.congr ((stackStarts_q e6).trans (bucketStarts_q e5))
  refine Post.bind (firstRowH_post hRq B2 (by rw [(stackStarts_q e6).trans (bucketStarts_q e5)]; exact n2) o6) ?_
  rintro s7 h7 _ o7 _ _
  refine Post.bind (pass1H_post hRq B2 o7) ?_
  rintro s8 h8 _ o8 _ _
  have o8' : Own h0 (List.replicate 258 queueBlk ++ (Q ++ (Q ++ (bwtBlk ct.n :: L)))) ct.bwpWidth (fun _ => 258) P (ct.numSubs + 1) s8 h8 := by
    refine o8.frame (o8.has.perm ?_) o8.peak
    rw [hQ]
    refine List.Perm.append_left _ ?_
    rw [List.perm_iff_count]
    intro x
    simp only [List.count_append, List.count_cons]
    omega
  refine Post.bind (deleteQueuesH_post (t := TYPE_LMS) (by decide) rfl o8') ?_
  rintro s9 h9 _ o9 _ _
  rw [← hQ] at o9
  refine Post.bind (deleteQueuesH_post (t := TYPE_L) (by decide) rfl o9) ?_
  rintro s10 h10 _ o10 _ _
  rw [hQ] at o10
  have q10 := tot_qb o10 (Nat.le_refl _) (by intro t _; split <;> [exact Nat.zero_le _; (split <;> [exact Nat.zero_le _; exact Nat.le_refl _])])
  refine Post.seq (newQueuesH_le (P := P) (k := 258) hq0 o10.has o10.peak (by
    simp only [lbytes_append, lbytes_cons, lbytes_qblks, hQb]; omega)) ?_
  rintro h11 ⟨a11, p11⟩ _ _
  rw [hQ] at a11
  have o11 : Own h0 (Q ++ (Q ++ (bwtBlk ct.n :: L))) ct.bwpWidth (fun t => if t = TYPE_LMS then 0 else 258) P (ct.numSubs + 1)
      { s10 with q := fun t => if t = TYPE_L then newQueues ct.bwpWidth (qj 3) else s10.q t } h11 := by
    have hs10 : (s10.q TYPE_L).size = 0 := by rw [o10.size TYPE_L (by decide)]; rfl
    have ht : ∀ f : Queue → Nat, (∀ j, f (Queue.new ct.bwpWidth j) = 0) → tot f
        { s10 with q := fun t => if t = TYPE_L then newQueues ct.bwpWidth (qj 3) else s10.q t } = tot f s10 := by
      intro f hf
      unfold tot
      apply sumTo_congr
      intro t _
      by_cases htt : t = TYPE_L
      · subst htt
        simp only [if_true]
        rw [rowSum_new f _ _ hf]
        unfold rowSum
        rw [hs10]
        rfl
      · simp only [if_neg htt]
    refine ⟨?_, ?_, ?_, ?_, p11⟩
    · intro t ht' c hc
      by_cases htt : t = TYPE_L
      · subst htt; simp only [if_true]; exact Queue.QOk.new _ _ hw1 hw2
      · simp only [if_neg htt] at hc ⊢; exact o10.ok t ht' c hc
    · intro t ht'
      by_cases htt : t = TYPE_L
      · subst htt; rfl
      · simp only [if_neg htt]
        rw [o10.size t ht']
        simp only [if_neg htt]
    · rw [ht _ (fun j => Queue.liveQ_new _ j)]
      exact a11.perm (perm_front _ _ _)
    · rw [ht _ (fun j => rfl)]; exact o10.items
  have B3 : Bnd h0 (Q ++ (Q ++ (bwtBlk ct.n :: L))) ct.bwpWidth (fun t => if t = TYPE_LMS then 0 else 258) P (ct.numSubs + 1) := by
    refine ⟨fun t _ => by split <;> omega, ?_, hN⟩
    simp only [lbytes_cons, lbytes_append, hQb]
    omega
  refine Post.liftBind ?_
  intro s12 e12
  have o12 := o11.congr (bucketEnds_q e12)
  refine Post.bind (pass2H_post hRq B3 o12) ?_
  rintro s13 h13 _ o13 _ _
  rw [← hQ] at o13
  refine Post.bind (deleteQueuesH_post (t := TYPE_L) (by decide) rfl o13) ?_
  rintro s14 h14 _ o14 _ _
  refine Post.bind (deleteQueuesH_post (t := TYPE_S) (by decide) rfl o14) ?_
  rintro s15 h15 _ o15 _ _
  have hz15 : tot Queue.liveQ s15 = 0 := by
    unfold tot
    rw [sumTo_congr (g' := fun _ => 0) (fun t ht => ?_)]
    · exact sumTo_zero
    · unfold rowSum
      rw [o15.size t ht]
      have : t = 0 ∨ t = 1 ∨ t = 2 := by omega
      rcases this with rfl | rfl | rfl <;> rfl
  have a15 := o15.has
  rw [hz15] at a15
  have a15 : Has h0 (bwtBlk ct.n :: L) h15 := a15
  refine Post.seq (mallocUse_le (P := P) (b := resultBlk) (hR _ (Or.inr (Or.inr rfl))) (by simp [Plain]) a15 o15.peak (by
    simp only [lbytes_cons]; omega)) ?_
  rintro h16 ⟨a16, p16⟩ _ _
  cases hl : s15.last with
  | none => exact ⟨Step.refl _ _, Or.inl ⟨rfl, rfl⟩⟩
  | some l => exact Post.pure ⟨a16, p16⟩

end
end Flbwt
