import Verif.HeapQueue

/-!
# The queues of `induce_bwt_XXbit` and the heap (proof helpers)
-/

namespace Flbwt

/-- `g 0 + … + g (k - 1)` -/
def sumTo (g : Nat → Nat) : Nat → Nat
  | 0 => 0
  | k + 1 => sumTo g k + g k

theorem sumTo_congr {g g' : Nat → Nat} {k : Nat} (h : ∀ c, c < k → g c = g' c) : sumTo g k = sumTo g' k := by
  induction k with
  | zero => rfl
  | succ k ih => simp only [sumTo]; rw [ih (fun c hc => h c (by omega)), h k (by omega)]

theorem sumTo_upd {g g' : Nat → Nat} {k c : Nat} (hc : c < k) (h : ∀ x, x ≠ c → g' x = g x) :
    sumTo g' k + g c = sumTo g k + g' c := by
  induction k with
  | zero => omega
  | succ k ih =>
    simp only [sumTo]
    by_cases hk : c = k
    · subst hk
      rw [sumTo_congr (g := g') (g' := g) (fun x hx => h x (by omega))]
      omega
    · have := ih (by omega)
      rw [h k (by omega)]
      omega

theorem sumTo_le {g : Nat → Nat} {k b : Nat} (h : ∀ c, c < k → g c ≤ b) : sumTo g k ≤ k * b := by
  induction k with
  | zero => simp [sumTo]
  | succ k ih =>
    have := ih (fun c hc => h c (by omega))
    have := h k (by omega)
    simp only [sumTo, Nat.add_mul, Nat.one_mul]
    omega

theorem sumTo_lin {f g : Nat → Nat} {k b : Nat} (h : ∀ c, c < k → 1024 * f c ≤ g c + b) :
    1024 * sumTo f k ≤ sumTo g k + k * b := by
  induction k with
  | zero => simp [sumTo]
  | succ k ih =>
    have := ih (fun c hc => h c (by omega))
    have := h k (by omega)
    simp only [sumTo, Nat.add_mul, Nat.one_mul]
    omega

theorem sumTo_zero {k : Nat} : sumTo (fun _ => 0) k = 0 := by
  induction k with
  | zero => rfl
  | succ k ih => simp [sumTo, ih]

theorem le_sumTo {g : Nat → Nat} {k c : Nat} (h : c < k) : g c ≤ sumTo g k := by
  induction k with
  | zero => omega
  | succ k ih =>
    simp only [sumTo]
    by_cases hk : c = k
    · subst hk; omega
    · have := ih (by omega); omega

/-- sum over a row of queues -/
def rowSum (f : Queue → Nat) (row : Mem Queue) : Nat := sumTo (fun c => f (row.data c)) row.size

/-- sum over all queues -/
def tot (f : Queue → Nat) (s : IndSt) : Nat := sumTo (fun t => rowSum f (s.q t)) 3

theorem setQ_facts {s s' : IndSt} {t c : Nat} {x : Queue} (ht : t < 3) (h : s.setQ t c x = .ok s') :
    c < (s.q t).size ∧ s'.q = (fun t' => if t' = t then (s.q t).upd c x else s.q t') ∧
    ∀ f, tot f s' + f ((s.q t).data c) = tot f s + f x := by
  unfold IndSt.setQ Mem.wr at h
  split at h
  · rename_i hc
    cases h
    refine ⟨hc, rfl, fun f => ?_⟩
    have h1 := sumTo_upd (g := fun y => f ((s.q t).data y)) (g' := fun y => f (((s.q t).upd c x).data y)) hc
      (fun y hy => by rw [Mem.upd_data_ne _ _ hy])
    have h2 := sumTo_upd (g := fun t' => rowSum f (s.q t'))
      (g' := fun t' => rowSum f (if t' = t then (s.q t).upd c x else s.q t')) ht (fun y hy => by simp only [if_neg hy])
    simp only [if_true, Mem.upd_data_self] at h1 h2
    unfold tot
    unfold rowSum at h2 ⊢
    simp only [Mem.upd_size] at h2 ⊢
    omega
  · cases h

/-- bytes of one block of a queue -/
def qbytes (w : Nat) : Nat := qblockBlk.bytes + (packedBlk.bytes + (wordsBlk QSIZ w).bytes)

/-- bytes of a list of blocks -/
def lbytes (L : List Blk) : Nat := (L.map Blk.bytes).sum

theorem lbytes_append (A B : List Blk) : lbytes (A ++ B) = lbytes A + lbytes B := by simp [lbytes]
theorem lbytes_cons (b : Blk) (B : List Blk) : lbytes (b :: B) = b.bytes + lbytes B := by simp [lbytes]
theorem lbytes_nil : lbytes [] = 0 := rfl
theorem lbytes_replicate (k : Nat) (b : Blk) : lbytes (List.replicate k b) = k * b.bytes := by simp [lbytes]

theorem lbytes_qblks (w k : Nat) : lbytes (qblks w k) = k * qbytes w := by
  unfold qblks qbytes
  rw [lbytes_append, lbytes_append, lbytes_replicate, lbytes_replicate, lbytes_replicate, Nat.mul_add, Nat.mul_add]

/-- most blocks that queues with `K` items can have -/
def qmax (K : Nat) : Nat := (K + 774 * 2046) / 1024

/-- The queues of `s` (rows of `z t` queues) hold at most `K` items and own their blocks; the blocks `L` belong to
others. -/
structure Own (h0 : Heap) (L : List Blk) (w : Nat) (z : Nat → Nat) (P K : Nat) (s : IndSt) (h : Heap) : Prop where
  ok : ∀ t, t < 3 → ∀ c, c < (s.q t).size → Queue.QOk w ((s.q t).data c)
  size : ∀ t, t < 3 → (s.q t).size = z t
  has : Has h0 (qblks w (tot Queue.liveQ s) ++ L) h
  items : tot Queue.n s ≤ K
  peak : h.peak ≤ P

/-- What the bounds must satisfy. -/
structure Bnd (h0 : Heap) (L : List Blk) (w : Nat) (z : Nat → Nat) (P K : Nat) : Prop where
  z : ∀ t, t < 3 → z t ≤ 258
  P : h0.total + lbytes L + qmax K * qbytes w ≤ P
  K : K < 2 ^ 63

section
variable {R : Role → Prop} {h h0 : Heap} {L : List Blk} {w P K K0 : Nat} {z : Nat → Nat} {s : IndSt}

theorem Own.congr {s' : IndSt} (o : Own h0 L w z P K s h) (e : s'.q = s.q) : Own h0 L w z P K s' h := by
  obtain ⟨a, b, c, d, f⟩ := o
  have ht : ∀ f, tot f s' = tot f s := fun f => by unfold tot; rw [e]
  exact ⟨by rw [e]; exact a, by rw [e]; exact b, by rw [ht]; exact c, by rw [ht]; exact d, f⟩

theorem Own.more {K' : Nat} (o : Own h0 L w z P K s h) (e : K ≤ K') : Own h0 L w z P K' s h :=
  ⟨o.ok, o.size, o.has, Nat.le_trans o.items e, o.peak⟩

theorem tot_lin (ok : ∀ t, t < 3 → ∀ c, c < (s.q t).size → Queue.QOk w ((s.q t).data c)) (hz : ∀ t, t < 3 → (s.q t).size ≤ 258) :
    1024 * tot Queue.liveQ s ≤ tot Queue.n s + 774 * 2046 := by
  have := sumTo_lin (f := fun t => rowSum Queue.liveQ (s.q t)) (g := fun t => rowSum Queue.n (s.q t)) (k := 3) (b := 258 * 2046) (by
    intro t ht
    have := sumTo_lin (f := fun c => Queue.liveQ ((s.q t).data c)) (g := fun c => Queue.n ((s.q t).data c)) (k := (s.q t).size)
      (b := 2046) (fun c hc => (ok t ht c hc).blocks)
    have h2 := Nat.mul_le_mul_right 2046 (hz t ht)
    exact Nat.le_trans this (Nat.add_le_add_left h2 _))
  refine Nat.le_trans this (Nat.add_le_add_left ?_ _)
  omega

/-- the peak after the queues were changed -/
theorem peak_le {h' : Heap} (B : Bnd h0 L w z P K0) (hK : tot Queue.n s ≤ K0)
    (ok : ∀ t, t < 3 → ∀ c, c < (s.q t).size → Queue.QOk w ((s.q t).data c)) (hz : ∀ t, t < 3 → (s.q t).size = z t)
    (has : Has h0 (qblks w (tot Queue.liveQ s) ++ L) h') : h'.total ≤ P := by
  have h1 := tot_lin ok (fun t ht => by rw [hz t ht]; exact B.z t ht)
  have h2 : tot Queue.liveQ s ≤ qmax K0 := by
    unfold qmax
    rw [Nat.le_div_iff_mul_le (by omega)]
    omega
  have h3 := has.total
  have h4 : lbytes (qblks w (tot Queue.liveQ s) ++ L) = tot Queue.liveQ s * qbytes w + lbytes L := by
    rw [lbytes_append, lbytes_qblks]
  have h5 := Nat.mul_le_mul_right (qbytes w) h2
  have h6 := B.P
  unfold lbytes at h4
  unfold lbytes at h6
  omega

theorem n_le_tot {t c : Nat} (ht : t < 3) (hc : c < (s.q t).size) : ((s.q t).data c).n ≤ tot Queue.n s := by
  have h1 := le_sumTo (g := fun c => Queue.n ((s.q t).data c)) hc
  have h2 := le_sumTo (g := fun t => rowSum Queue.n (s.q t)) ht
  exact Nat.le_trans h1 h2

theorem rd_facts {row : Mem Queue} {c : Nat} {q : Queue} (h : row.rd c = .ok q) : c < row.size ∧ q = row.data c := by
  unfold Mem.rd at h
  split at h
  · rename_i hc; cases h; exact ⟨hc, rfl⟩
  · cases h

/-- the queues after one of them was replaced -/
theorem Own.set {h' : Heap} {s' : IndSt} {t c : Nat} {q : Queue} (B : Bnd h0 L w z P K0) (ht : t < 3) (e : s.setQ t c q = .ok s')
    (o : Own h0 L w z P K s h) (hq : Queue.QOk w q) (has : Has h0 (qblks w (tot Queue.liveQ s') ++ L) h')
    (hK : tot Queue.n s' ≤ K0) (hp : h'.peak ≤ max P h'.total) : Own h0 L w z P (tot Queue.n s') s' h' := by
  obtain ⟨hc, hqq, hf⟩ := setQ_facts ht e
  have hok : ∀ t, t < 3 → ∀ c, c < (s'.q t).size → Queue.QOk w ((s'.q t).data c) := by
    intro t' ht' c' hc'
    rw [hqq] at hc' ⊢
    simp only at hc' ⊢
    by_cases htt : t' = t
    · subst htt
      simp only [if_true] at hc' ⊢
      by_cases hcc : c' = c
      · subst hcc; simpa using hq
      · rw [Mem.upd_data_ne _ _ hcc]; exact o.ok _ ht' _ hc'
    · simp only [if_neg htt] at hc' ⊢; exact o.ok _ ht' _ hc'
  have hz : ∀ t, t < 3 → (s'.q t).size = z t := by
    intro t' ht'
    rw [hqq]
    by_cases htt : t' = t
    · subst htt; simp only [if_true, Mem.upd_size]; exact o.size _ ht'
    · simp only [if_neg htt]; exact o.size _ ht'
  refine ⟨hok, hz, has, Nat.le_refl _, ?_⟩
  have := peak_le B hK hok hz has
  omega

theorem enqH_post {t c : Nat} {sj : BitVec 64} {x : Int} (hR : ∀ r, RQ r → R r) (B : Bnd h0 L w z P K0) (ht : t < 3)
    (hK : K + 1 ≤ K0) (o : Own h0 L w z P K s h) :
    Post R h (s.enq sj t c x) (fun s' h' => Own h0 L w z P (K + 1) s' h') (s.enqH sj t c x h) := by
  unfold IndSt.enq IndSt.enqH
  refine Post.liftBind ?_
  intro q eq
  obtain ⟨hc, rfl⟩ := rd_facts eq
  have hn := n_le_tot ht hc
  have hl : Queue.liveQ ((s.q t).data c) ≤ tot Queue.liveQ s := by
    have h1 := le_sumTo (g := fun c => Queue.liveQ ((s.q t).data c)) hc
    have h2 := le_sumTo (g := fun t => rowSum Queue.liveQ (s.q t)) ht
    exact Nat.le_trans h1 h2
  have hi := o.items
  have hB := B.K
  refine Post.bind (enqueueH_post (k := tot Queue.liveQ s - Queue.liveQ ((s.q t).data c)) hR (o.ok t ht c hc) (by omega) (by
    rw [Nat.add_sub_cancel' hl]; exact o.has)) ?_
  rintro q' h1 _ ⟨⟨a1, a2⟩, a3, a4⟩ _ _
  refine Post.lift ?_
  intro s' es
  obtain ⟨_, _, hf⟩ := setQ_facts ht es
  have f1 := hf Queue.n
  have f2 := hf Queue.liveQ
  have hp := o.peak
  refine (Own.set B ht es o a1 ?_ (by omega) (by omega)).more (by omega)
  rwa [show tot Queue.liveQ s' = Queue.liveQ q' + (tot Queue.liveQ s - Queue.liveQ ((s.q t).data c)) by omega]

theorem enqLH_post {t c : Nat} {sj : BitVec 64} {x : Int} (hR : ∀ r, RQ r → R r) (B : Bnd h0 L w z P K0) (ht : t < 3)
    (hK : K + 1 ≤ K0) (o : Own h0 L w z P K s h) :
    Post R h (s.enqL sj t c x) (fun s' h' => Own h0 L w z P (K + 1) s' h' ∧ 1 ≤ ((s'.q t).data c).n) (s.enqLH sj t c x h) := by
  unfold IndSt.enqL IndSt.enqLH
  refine Post.liftBind ?_
  intro q eq
  obtain ⟨hc, rfl⟩ := rd_facts eq
  have hn := n_le_tot ht hc
  have hl : Queue.liveQ ((s.q t).data c) ≤ tot Queue.liveQ s := by
    have h1 := le_sumTo (g := fun c => Queue.liveQ ((s.q t).data c)) hc
    have h2 := le_sumTo (g := fun t => rowSum Queue.liveQ (s.q t)) ht
    exact Nat.le_trans h1 h2
  have hi := o.items
  have hB := B.K
  refine Post.bind (enqueueLH_post (k := tot Queue.liveQ s - Queue.liveQ ((s.q t).data c)) hR (o.ok t ht c hc) (by omega) (by
    rw [Nat.add_sub_cancel' hl]; exact o.has)) ?_
  rintro q' h1 _ ⟨⟨a1, a2⟩, a3, a4⟩ _ _
  refine Post.lift ?_
  intro s' es
  obtain ⟨_, hqq, hf⟩ := setQ_facts ht es
  have f1 := hf Queue.n
  have f2 := hf Queue.liveQ
  have hp := o.peak
  refine ⟨(Own.set B ht es o a1 ?_ (by omega) (by omega)).more (by omega), ?_⟩
  · rwa [show tot Queue.liveQ s' = Queue.liveQ q' + (tot Queue.liveQ s - Queue.liveQ ((s.q t).data c)) by omega]
  · rw [hqq]; simp only [if_true, Mem.upd_data_self]; omega

theorem deqH_post {t c : Nat} {sj : BitVec 64} (B : Bnd h0 L w z P K0) (ht : t < 3)
    (hK : K ≤ K0) (hn1 : 1 ≤ ((s.q t).data c).n) (o : Own h0 L w z P K s h) :
    Post R h (s.deq sj t c) (fun r h' => 1 ≤ K ∧ Own h0 L w z P (K - 1) r.2 h') (s.deqH sj t c h) := by
  unfold IndSt.deq IndSt.deqH
  refine Post.liftBind ?_
  intro q eq
  obtain ⟨hc, rfl⟩ := rd_facts eq
  have hn := n_le_tot ht hc
  have hl : Queue.liveQ ((s.q t).data c) ≤ tot Queue.liveQ s := by
    have h1 := le_sumTo (g := fun c => Queue.liveQ ((s.q t).data c)) hc
    have h2 := le_sumTo (g := fun t => rowSum Queue.liveQ (s.q t)) ht
    exact Nat.le_trans h1 h2
  have hi := o.items
  have hB := B.K
  refine Post.bind (dequeueH_post (k := tot Queue.liveQ s - Queue.liveQ ((s.q t).data c)) (o.ok t ht c hc) hn1 (by
    rw [Nat.add_sub_cancel' hl]; exact o.has)) ?_
  rintro r h1 _ ⟨⟨a1, a2⟩, a3, a4⟩ _ _
  refine Post.liftBind ?_
  intro s' es
  obtain ⟨_, _, hf⟩ := setQ_facts ht es
  have f1 := hf Queue.n
  have f2 := hf Queue.liveQ
  have hp := o.peak
  refine Post.pure ⟨by omega, (Own.set B ht es o a1 ?_ (by omega) (by omega)).more (by omega)⟩
  rwa [show tot Queue.liveQ s' = Queue.liveQ r.2 + (tot Queue.liveQ s - Queue.liveQ ((s.q t).data c)) by omega]

/-! ## The loops -/

theorem seedH_post {S : Type} [SaStore S] {e : IndEnv} {sa : S} {num : Nat} (hR : ∀ r, RQ r → R r) (B : Bnd h0 L w z P (num + 1))
    (o : Own h0 L w z P 0 s h) :
    Post R h (seed e sa num s) (fun s' h' => Own h0 L w z P (num + 1) s' h' ∧ 1 ≤ ((s'.q TYPE_LMS).data 0).n)
      (seedH e sa num s h) := by
  unfold seed seedH
  refine (loopDownH_post (I := fun i s' h' => Own h0 L w z P (num + 1 - i) s' h' ∧ (i = 0 → 1 ≤ ((s'.q TYPE_LMS).data 0).n)) _ _
    ⟨by rwa [Nat.sub_self], fun h => by omega⟩ ?_).mono ?_
  · rintro i s1 h1 hi ⟨o1, -⟩ _ _
    by_cases hs : i < SaStore.size sa
    · simp only [if_pos hs]
      refine Post.liftBind ?_
      intro c ec
      refine (enqLH_post hR B (by decide) (by omega) o1).mono ?_
      rintro s2 h2 _ _ _ ⟨o2, n2⟩
      refine ⟨?_, ?_⟩
      · rwa [show num + 1 - i = num + 1 - (i + 1) + 1 by omega]
      · rintro rfl
        unfold seedChar at ec
        cases ec
        exact n2
    · simp only [if_neg hs]
      exact ⟨Step.refl _ _, Or.inl ⟨rfl, rfl⟩⟩
  · rintro s1 h1 _ _ _ ⟨o1, n1⟩
    exact ⟨o1, n1 rfl⟩

theorem putFront_q {s s' : IndSt} {c v : Nat} (h : s.putFront c v = .ok s') : s'.q = s.q := by
  have : Tot (s.putFront c v) (fun x => x = s') := by rw [h]; rfl
  unfold IndSt.putFront at this
  simp only [Tot_bind, Mem.Tot_rd, Mem.Tot_wr, Tot_ok] at this
  rw [← this.2.2.2]

theorem push_q {s s' : IndSt} {c v : Nat} (h : s.push c v = .ok s') : s'.q = s.q := by
  have : Tot (s.push c v) (fun x => x = s') := by rw [h]; rfl
  unfold IndSt.push at this
  simp only [Tot_bind, Mem.Tot_rd, Mem.Tot_wr, Tot_ok] at this
  rw [← this.2.2.2]

theorem putBack_q {s s' : IndSt} {c v : Nat} (h : s.putBack c v = .ok s') : s'.q = s.q := by
  have : Tot (s.putBack c v) (fun x => x = s') := by rw [h]; rfl
  unfold IndSt.putBack at this
  simp only [Tot_bind, Mem.Tot_rd, Mem.Tot_wr, Tot_ok] at this
  rw [← this.2.2.2]

theorem popBack_q {s s' : IndSt} {c : Nat} (h : s.popBack c = .ok s') : s'.q = s.q := by
  have : Tot (s.popBack c) (fun x => x = s') := by rw [h]; rfl
  unfold IndSt.popBack IndSt.putBack at this
  simp only [Tot_bind, Mem.Tot_rd, Mem.Tot_wr, Tot_ok] at this
  rw [← this.2.2.2.2.2.2]

theorem lastBack_q {s s' : IndSt} {c : Nat} (h : s.lastBack c = .ok s') : s'.q = s.q := by
  have : Tot (s.lastBack c) (fun x => x = s') := by rw [h]; rfl
  unfold IndSt.lastBack at this
  simp only [Tot_bind, Mem.Tot_rd, Mem.Tot_wr, Tot_ok] at this
  rw [← this.2.2]

theorem pushIf_q {s s' : IndSt} {t c c1 : Nat} (h : pushIf t c c1 s = .ok s') : s'.q = s.q := by
  unfold pushIf at h
  split at h
  · exact push_q h
  · cases h; rfl

/-- the invariant of a loop that cannot fail otherwise -/
theorem loopUp_pres {σ : Type} {f : Nat → σ → M σ} (I : σ → Prop) (lo cnt : Nat) {a b : σ} (h : loopUp lo cnt a f = .ok b) (ha : I a)
    (hs : ∀ i x y, I x → f i x = .ok y → I y) : I b := by
  induction cnt generalizing lo a with
  | zero => cases h; exact ha
  | succ c ih =>
    change (f lo a >>= _) = _ at h
    cases hx : f lo a with
    | error e => rw [hx] at h; cases h
    | ok x => rw [hx] at h; exact ih (lo + 1) h (hs _ _ _ ha hx)

theorem bucketStarts_q {e : IndEnv} {s s' : IndSt} (h : bucketStarts e s = .ok s') : s'.q = s.q := by
  unfold bucketStarts at h
  change (loopUp 0 258 (s, 0) _ >>= _) = _ at h
  cases hx : loopUp 0 258 (s, 0) (fun i (st : IndSt × Nat) => do
    let M2 ← st.1.M2.wr i st.2
    let M3 ← st.1.M3.wr i st.2
    let m ← e.M.rd i
    (Except.ok ({ st.1 with M2 := M2, M3 := M3 }, addU64 st.2 m) : M (IndSt × Nat))) with
  | error x => rw [hx] at h; cases h
  | ok x =>
    rw [hx] at h
    cases h
    refine loopUp_pres (fun r => r.1.q = s.q) _ _ hx rfl ?_
    intro i x y hxq hy
    have : Tot (do
      let M2 ← x.1.M2.wr i x.2
      let M3 ← x.1.M3.wr i x.2
      let m ← e.M.rd i
      (Except.ok ({ x.1 with M2 := M2, M3 := M3 }, addU64 x.2 m) : M (IndSt × Nat))) (fun z => z = y) := by rw [hy]; rfl
    simp only [Tot_bind, Mem.Tot_rd, Mem.Tot_wr, Tot_ok] at this
    rw [← this.2.2.2]; exact hxq

theorem stackStarts_q {NL : Mem Nat} {s s' : IndSt} (h : stackStarts NL s = .ok s') : s'.q = s.q := by
  unfold stackStarts at h
  refine loopUp_pres (fun r => r.q = s.q) _ _ h rfl ?_
  intro i x y hxq hy
  have : Tot (do
    let m ← x.M2.rd i
    let l ← NL.rd i
    let C2 ← x.C2.wr i (addU64 m l)
    (Except.ok { x with C2 := C2 } : M IndSt)) (fun z => z = y) := by rw [hy]; rfl
  simp only [Tot_bind, Mem.Tot_rd, Mem.Tot_wr, Tot_ok] at this
  rw [← this.2.2.2]; exact hxq

theorem bucketEnds_q {e : IndEnv} {s s' : IndSt} (h : bucketEnds e s = .ok s') : s'.q = s.q := by
  unfold bucketEnds at h
  change (s.M2.wr 0 0 >>= _) = _ at h
  cases hx : s.M2.wr 0 0 with
  | error x => rw [hx] at h; cases h
  | ok M2 =>
    rw [hx] at h
    refine loopUp_pres (fun r => r.q = s.q) _ _ h rfl ?_
    intro i x y hxq hy
    have : Tot (do
      let a ← x.M2.rd (i - 1)
      let m ← e.M.rd i
      let M2 ← x.M2.wr i (addU64 a m)
      (Except.ok { x with M2 := M2 } : M IndSt)) (fun z => z = y) := by rw [hy]; rfl
    simp only [Tot_bind, Mem.Tot_rd, Mem.Tot_wr, Tot_ok] at this
    rw [← this.2.2.2]; exact hxq

theorem induceLH_post {e : IndEnv} {c1 : Nat} {q : Int} (hR : ∀ r, RQ r → R r) (B : Bnd h0 L w z P K0) (hK : K + 1 ≤ K0)
    (o : Own h0 L w z P K s h) : Post R h (induceL e c1 q s) (fun s' h' => Own h0 L w z P (K + 1) s' h') (induceLH e c1 q s h) := by
  unfold induceL induceLH
  refine Post.bind (enqH_post hR B (by decide) hK o) ?_
  intro s1 h1 _ o1 _ _
  refine Post.liftBind ?_
  intro v _
  refine Post.lift ?_
  intro s2 e2
  exact o1.congr (putFront_q e2)

theorem firstRowH_post {e : IndEnv} (hR : ∀ r, RQ r → R r) (B : Bnd h0 L w z P K0) (hn : 1 ≤ ((s.q TYPE_LMS).data 0).n)
    (o : Own h0 L w z P K0 s h) : Post R h (firstRow e s) (fun s' h' => Own h0 L w z P K0 s' h') (firstRowH e s h) := by
  unfold firstRow firstRowH
  refine Post.bind (deqH_post B (by decide) (Nat.le_refl _) hn o) ?_
  rintro r h1 _ ⟨k1, o1⟩ _ _
  refine Post.liftBind ?_
  intro c1 _
  refine Post.liftBind ?_
  intro bwt _
  refine Post.bind (induceLH_post hR B (by omega) (o1.congr (s' := { r.2 with bwt := bwt }) rfl)) ?_
  intro s2 h2 _ o2 _ _
  refine Post.lift ?_
  intro s3 e3
  rw [Nat.sub_add_cancel k1] at o2
  exact o2.congr (push_q e3)

theorem isEmpty_n {q : Queue} (h : ¬ q.isEmpty = true) : 1 ≤ q.n := by
  unfold Queue.isEmpty at h
  simp only [beq_iff_eq] at h
  omega

theorem visit1H_post {e : IndEnv} {c t : Nat} {m q : Int} (hR : ∀ r, RQ r → R r) (B : Bnd h0 L w z P K0) (hK : K + 1 ≤ K0)
    (o : Own h0 L w z P K s h) :
    Post R h (visit1 e c t m q s) (fun s' h' => Own h0 L w z P (K + 1) s' h') (visit1H e c t m q s h) := by
  unfold visit1 visit1H
  by_cases hq : q = e.lastptr
  · rw [if_pos hq, if_pos hq]
    exact Post.pure ((o.congr (s' := { s with last := some (BitVec.ofInt 64 m).toNat }) rfl).more (Nat.le_succ _))
  · rw [if_neg hq, if_neg hq]
    refine Post.liftBind ?_
    intro c1 _
    by_cases hc : c ≤ c1 + 1
    · rw [if_pos hc, if_pos hc]
      refine Post.bind (induceLH_post hR B hK o) ?_
      intro s1 h1 _ o1 _ _
      refine Post.lift ?_
      intro s2 e2
      exact o1.congr (pushIf_q e2)
    · rw [if_neg hc, if_neg hc]
      refine (enqLH_post hR B (by decide) hK o).mono ?_
      rintro s2 h2 _ _ _ ⟨o2, _⟩
      exact o2

theorem drain1H_post {e : IndEnv} {fuel c t : Nat} (ht : t < 3) (hR : ∀ r, RQ r → R r) (B : Bnd h0 L w z P K0)
    (o : Own h0 L w z P K0 s h) :
    Post R h (drain1 e fuel c t s) (fun s' h' => Own h0 L w z P K0 s' h') (drain1H e fuel c t s h) := by
  unfold drain1 drain1H
  refine Post.liftBind ?_
  intro m _
  refine whileH_post (I := fun (r : IndSt × Int) h' => Own h0 L w z P K0 r.1 h') _ _ _ o ?_
  rintro ⟨s1, m1⟩ h1 o1 _ _
  simp only at o1
  unfold step1 step1H
  refine Post.liftBind ?_
  intro q eq
  obtain ⟨hc, rfl⟩ := rd_facts eq
  by_cases hem : ((s1.q t).data c).isEmpty = true
  · rw [if_pos hem, if_pos hem]
    exact Post.pure o1
  · rw [if_neg hem, if_neg hem]
    refine Post.bind (deqH_post B ht (Nat.le_refl _) (isEmpty_n hem) o1) ?_
    rintro r h2 _ ⟨k2, o2⟩ _ _
    refine Post.bind (visit1H_post hR B (by omega) o2) ?_
    intro s3 h3 _ o3 _ _
    rw [Nat.sub_add_cancel k2] at o3
    exact Post.pure o3

theorem pass1H_post {e : IndEnv} {fuel : Nat} (hR : ∀ r, RQ r → R r) (B : Bnd h0 L w z P K0)
    (o : Own h0 L w z P K0 s h) :
    Post R h (pass1 e fuel s) (fun s' h' => Own h0 L w z P K0 s' h') (pass1H e fuel s h) := by
  unfold pass1 pass1H
  refine loopUpH_post (I := fun _ s' h' => Own h0 L w z P K0 s' h') _ _ _ o ?_
  intro i s1 h1 _ _ o1 _ _
  refine Post.bind (drain1H_post (by decide) hR B o1) ?_
  intro s2 h2 _ o2 _ _
  exact drain1H_post (by decide) hR B o2

theorem visit2H_post {e : IndEnv} {c : Nat} {q : Int} (hR : ∀ r, RQ r → R r) (B : Bnd h0 L w z P K0) (hK : K + 1 ≤ K0)
    (o : Own h0 L w z P K s h) :
    Post R h (visit2 e c q s) (fun s' h' => Own h0 L w z P (K + 1) s' h') (visit2H e c q s h) := by
  unfold visit2 visit2H
  refine Post.liftBind ?_
  intro c1 _
  by_cases hc : c1 + 1 ≤ c
  · rw [if_pos hc, if_pos hc]
    refine Post.bind (enqH_post hR B (by decide) hK o) ?_
    intro s1 h1 _ o1 _ _
    by_cases hq : q - 1 = e.lastptr
    · rw [if_pos hq, if_pos hq]
      refine Post.lift ?_
      intro s2 e2
      exact o1.congr (lastBack_q e2)
    · rw [if_neg hq, if_neg hq]
      refine Post.liftBind ?_
      intro c0 _
      by_cases hcc : c0 ≤ c1
      · rw [if_pos hcc, if_pos hcc]
        refine Post.lift ?_
        intro s2 e2
        exact o1.congr (putBack_q e2)
      · rw [if_neg hcc, if_neg hcc]
        refine Post.lift ?_
        intro s2 e2
        exact o1.congr (popBack_q e2)
  · rw [if_neg hc, if_neg hc]
    exact Post.pure (o.more (Nat.le_succ _))

theorem drain2H_post {e : IndEnv} {fuel c t : Nat} (ht : t < 3) (hR : ∀ r, RQ r → R r) (B : Bnd h0 L w z P K0)
    (o : Own h0 L w z P K0 s h) :
    Post R h (whileM fuel s (step2 e c t)) (fun s' h' => Own h0 L w z P K0 s' h') (whileH fuel s (step2H e c t) h) := by
  refine whileH_post (I := fun r h' => Own h0 L w z P K0 r h') _ _ _ o ?_
  rintro s1 h1 o1 _ _
  unfold step2 step2H
  refine Post.liftBind ?_
  intro q eq
  obtain ⟨hc, rfl⟩ := rd_facts eq
  by_cases hem : ((s1.q t).data c).isEmpty = true
  · rw [if_pos hem, if_pos hem]
    exact Post.pure o1
  · rw [if_neg hem, if_neg hem]
    refine Post.bind (deqH_post B ht (Nat.le_refl _) (isEmpty_n hem) o1) ?_
    rintro r h2 _ ⟨k2, o2⟩ _ _
    refine Post.bind (visit2H_post hR B (by omega) o2) ?_
    intro s3 h3 _ o3 _ _
    rw [Nat.sub_add_cancel k2] at o3
    exact Post.pure o3

theorem pass2H_post {e : IndEnv} {fuel : Nat} (hR : ∀ r, RQ r → R r) (B : Bnd h0 L w z P K0)
    (o : Own h0 L w z P K0 s h) :
    Post R h (pass2 e fuel s) (fun s' h' => Own h0 L w z P K0 s' h') (pass2H e fuel s h) := by
  unfold pass2 pass2H
  refine loopDownH_post (I := fun _ s' h' => Own h0 L w z P K0 s' h') _ _ o ?_
  intro i s1 h1 _ o1 _ _
  refine Post.bind (drain2H_post (by decide) hR B o1) ?_
  intro s2 h2 _ o2 _ _
  exact drain2H_post (by decide) hR B o2

end
end Flbwt
