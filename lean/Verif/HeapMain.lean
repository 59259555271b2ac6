import Verif.HeapFront
import Verif.PropsTop

/-!
# The stages of `bwt_is` and the heap (proof helpers)
-/

namespace Flbwt

open SaStore
open HashTable (ok_bind)

section
variable {R : Role → Prop} {h h0 : Heap} {L : List Blk} {P : Nat}

theorem loopDown_pres {σ : Type} {f : Nat → σ → M σ} (I : σ → Prop) (hi : Nat) {a b : σ} (h : loopDown hi a f = .ok b) (ha : I a)
    (hs : ∀ i x y, I x → f i x = .ok y → I y) : I b := by
  induction hi generalizing a with
  | zero => cases h; exact ha
  | succ c ih =>
    change (f c a >>= _) = _ at h
    cases hx : f c a with
    | error e => rw [hx] at h; cases h
    | ok x => rw [hx] at h; exact ih h (hs _ _ _ ha hx)

theorem sortNames_size {sorter : Sorter} {pj : Nat → Nat} {junk : Fresh} {ct : Container} {ht : HashTable} {ll : Nat}
    {r : HashTable × Mem Nat} (hl : HashTable.calculateLenlen (ct.headEnd + 1) = .ok ll) (e : sortNames sorter pj junk ct ht = .ok r) :
    r.1.htsize = ht.htsize ∧ r.1.bufsize = ht.bufsize +
      (1 + 1 + ll + (ct.headEnd + 1) + ht.nameBytes + (1 + 1 + 1 + 1 + ht.nameBytes)) := by
  have : Tot (sortNames sorter pj junk ct ht) (fun x => x = r) := by rw [e]; rfl
  unfold sortNames at this
  simp only [hl, ok_bind] at this
  rw [Tot_bind] at this
  obtain ⟨_, _, h1⟩ := Tot_iff.1 this
  rw [Tot_bind] at h1
  obtain ⟨_, _, h1⟩ := Tot_iff.1 h1
  rw [Tot_bind] at h1
  obtain ⟨_, _, h1⟩ := Tot_iff.1 h1
  rw [Tot_bind] at h1
  obtain ⟨_, _, h1⟩ := Tot_iff.1 h1
  rw [Tot_bind] at h1
  obtain ⟨_, _, h1⟩ := Tot_iff.1 h1
  rw [Tot_bind] at h1
  obtain ⟨_, _, h1⟩ := Tot_iff.1 h1
  rw [Tot_ok] at h1
  subst h1
  exact ⟨rfl, rfl⟩

theorem sortHead_size {T : Mem Nat} {ct : Container} {pos : Nat} {ht : HashTable} {s : Mem Nat} {r : Mem Nat × Container}
    (e : sortHead T ct pos ht s = .ok r) : ∃ ht', r.2.hashtable = some ht' ∧ ht'.htsize = ht.htsize ∧ ht'.bufsize = ht.bufsize := by
  have : Tot (sortHead T ct pos ht s) (fun x => x = r) := by rw [e]; rfl
  unfold sortHead at this
  rw [Tot_bind] at this
  obtain ⟨_, _, h1⟩ := Tot_iff.1 this
  rw [Tot_bind] at h1
  obtain ⟨_, _, h1⟩ := Tot_iff.1 h1
  rw [Tot_bind] at h1
  obtain ⟨_, _, h1⟩ := Tot_iff.1 h1
  rw [Tot_bind] at h1
  obtain ⟨_, _, h1⟩ := Tot_iff.1 h1
  rw [Tot_bind] at h1
  obtain ⟨_, _, h1⟩ := Tot_iff.1 h1
  rw [Tot_bind] at h1
  obtain ⟨_, _, h1⟩ := Tot_iff.1 h1
  rw [Tot_bind] at h1
  obtain ⟨_, _, h1⟩ := Tot_iff.1 h1
  rw [Tot_bind] at h1
  obtain ⟨_, _, h1⟩ := Tot_iff.1 h1
  rw [Tot_ok] at h1
  subst h1
  exact ⟨_, rfl, rfl, rfl⟩

theorem perm_cons2 (b : Blk) (A B L : List Blk) : (b :: (A ++ (B ++ L))).Perm (A ++ (B ++ (b :: L))) := by
  rw [List.perm_iff_count]
  intro x
  simp only [List.count_cons, List.count_append]
  omega

/-- a run that ends by a null dereference (proof helper) -/
def Lost {β : Type _} (R : Role → Prop) (h : Heap) (x : Except HErr β × Heap) : Prop :=
  x.1 = .error (.prog (.ub .nullDeref)) ∧ Step R h x.2

theorem Post.shift {β : Type _} {h1 : Heap} {m : M β} {Q : β → Heap → Prop} {x : Except HErr β × Heap} (st : Step R h h1)
    (hf : h1.failed = h.failed) (p : Post R h1 m Q x) : Post R h m Q x := by
  rcases x with ⟨r, hr⟩
  cases r with
  | ok a => exact ⟨p.1, st.trans p.2.1, p.2.2.1.trans hf, p.2.2.2⟩
  | error e =>
    cases e with
    | prog e => exact ⟨st.trans p.1, by rw [← hf]; exact p.2⟩
    | badAlloc => exact ⟨st.trans p.1, by rw [← hf]; exact p.2⟩
    | badFree => exact p

theorem mallocB_bind {β : Type _} {b : Blk} {f : Bool → H β} {m : M β} {Q : β → Heap → Prop} (hR : R b.role) (hb : Plain b)
    (hf : b.role.fam = .c) (h1 : Post R (h.got b) m Q (f true (h.got b))) (h2 : Lost R h.refused (f false h.refused)) :
    Post R h m Q ((mallocB b >>= f) h) := by
  rw [H.bind_def]
  unfold mallocB
  rw [if_pos hf]
  by_cases hav : h.av h.reqs b = true
  · rw [if_pos hav]
    exact Post.shift (got_step hb) rfl h1
  · rw [if_neg hav]
    show Post R h m Q (f false h.refused)
    have st : Step R h h.refused := refused_step hR hav
    revert h2
    rcases f false h.refused with ⟨r, h'⟩
    rintro ⟨e, st2⟩
    simp only at e st2
    subst e
    refine ⟨st.trans st2, Or.inr ⟨rfl, ?_⟩⟩
    have := st2.mono
    simp only [Heap.refused] at this
    omega

theorem Lost.lift {α β : Type _} {x : M α} {a : α} {f : α → H β} (e : x = .ok a) (hf : Lost R h (f a h)) :
    Lost R h ((H.lift x >>= f) h) := by
  subst e; exact hf

theorem Lost.realloc {β : Type _} {old new : Nat} {f : Unit → H β} (hR : R .buf)
    (a : Has h0 (bufL old ++ L) h)
    (hf : ∀ h', Step R h h' → Lost R h' (f () h')) : Lost R h ((reallocB old new >>= f) h) := by
  have := reallocB_post (new := new) hR a
  rw [H.bind_def]
  revert this
  rcases hx : reallocB old new h with ⟨r, h'⟩
  intro this
  cases r with
  | ok u =>
    obtain ⟨e, st⟩ := hf h' this.2.1
    exact ⟨e, this.2.1.trans st⟩
  | error e =>
    cases e with
    | badFree => exact this.elim
    | badAlloc =>
      exfalso
      unfold reallocB freeB at hx
      repeat' split at hx
      all_goals cases hx
    | prog e =>
      rcases this.2 with ⟨o, _⟩ | ⟨o, _⟩
      · cases o
      · subst o; exact ⟨rfl, this.1⟩

theorem sortLMSH_post {sorter : Sorter} {pj : Nat → Nat} {junk : Fresh} {T : Mem Nat} {ct : Container} {ht : HashTable} {ll : Nat}
    (hR : ∀ r, RT r → R r) (hR2 : R .ptrs) (hht : ct.hashtable = some ht) (hl : HashTable.calculateLenlen (ct.headEnd + 1) = .ok ll)
    (o : TabOwn h0 L P 67777 ht h) :
    Post R h (sortLMS sorter pj junk T ct) (fun r h' => ∃ ht', r.2.hashtable = some ht' ∧
      TabOwn h0 (ptrsBlk ct.numUnique :: L) P 67777 ht' h') (sortLMSH sorter pj junk T ct h) := by
  have hRb : R .buf := hR _ (Or.inr (Or.inr (Or.inr rfl)))
  unfold sortLMS sortLMSH
  rw [hht]
  simp only
  refine mallocB_bind hR2 (by simp [Plain]) rfl ?_ ?_
  · have o1 : TabOwn h0 (ptrsBlk ct.numUnique :: L) P 67777 ht (h.got (ptrsBlk ct.numUnique)) := by
      refine ⟨o.size, (o.has.got _).perm (perm_cons2 _ _ _ _), ?_⟩
      have h1 := o.has.total
      have h2 := lbytes_append (bufL ht.bufsize) (tabL 67777 ++ L)
      rw [lbytes_bufL] at h2
      have h3 := o.peak
      have h4 : lbytes (tabL 67777 ++ (ptrsBlk ct.numUnique :: L)) = (ptrsBlk ct.numUnique).bytes + lbytes (tabL 67777 ++ L) := by
        rw [lbytes_append, lbytes_cons, lbytes_append]; omega
      rw [h4]
      unfold lbytes at h2 h3 ⊢
      simp only [Heap.got, Heap.add]
      omega
    rw [hl]
    refine Post.seqv (v := ll) (Q := fun _ h' => h' = h.got (ptrsBlk ct.numUnique)) ⟨rfl, Step.refl _ _, rfl, rfl⟩ ?_
    rintro _ rfl
    refine Post.seq (buf_grow hRb (by omega) o1) ?_
    rintro h1 ⟨a1, p1⟩ _ _
    refine Post.seqv (v := ()) (Q := fun _ h' => h' = h1) ⟨rfl, Step.refl _ _, rfl, rfl⟩ ?_
    rintro _ rfl
    refine Post.liftBind ?_
    intro r er
    refine Post.lift ?_
    intro r2 e2
    obtain ⟨s1, s2⟩ := sortNames_size hl er
    obtain ⟨ht', e3, s3, s4⟩ := sortHead_size e2
    refine ⟨ht', e3, (s3.trans s1).trans o.size, ?_, ?_⟩
    · rw [s4, s2]; exact a1
    · rw [s4, s2]; exact p1
  · refine Lost.lift hl ?_
    refine Lost.realloc (h0 := h0) (L := tabL 67777 ++ L) hRb ⟨o.has.live, o.has.total⟩ ?_
    intro h' _
    exact ⟨rfl, Step.refl _ _⟩

theorem shStep_shape {sj : BitVec 64} {ht : HashTable} {T : Mem Nat} {i : Nat} {s s' : ShSt} (e : shStep sj ht T i s = .ok s') :
    s'.T1.bits = s.T1.bits ∧ s'.T1.length = s.T1.length := by
  unfold shStep at e
  cases h1 : T.rd i with
  | error x => rw [h1] at e; cases e
  | ok a =>
  rw [h1] at e
  change (T.rd (i + 1) >>= _) = _ at e
  cases h2 : T.rd (i + 1) with
  | error x => rw [h2] at e; cases e
  | ok b =>
  rw [h2] at e
  change (if a < b then _ else _) = _ at e
  split at e
  · cases e; exact ⟨rfl, rfl⟩
  · split at e
    · change (shMaybe sj ht T i s >>= _) = _ at e
      cases h3 : shMaybe sj ht T i s with
      | error x => rw [h3] at e; cases e
      | ok s1 =>
      rw [h3] at e
      cases e
      unfold shMaybe at h3
      split at h3
      · cases h4 : HashTable.findName ht T (addU64 (subU64 s.q (i + 1)) 1) (i + 1) with
        | error x => rw [h4] at h3; cases h3
        | ok nm =>
        rw [h4] at h3
        change (s.T1.setValue sj s.j (BitVec.ofNat 64 nm) >>= _) = _ at h3
        cases h5 : s.T1.setValue sj s.j (BitVec.ofNat 64 nm) with
        | error x => rw [h5] at h3; cases h3
        | ok T1 =>
        rw [h5] at h3
        cases h3
        obtain ⟨s1, s2, _⟩ := PackedArray.setValue_shape h5
        exact ⟨s1, s2⟩
      · cases h3; exact ⟨rfl, rfl⟩
    · cases e; exact ⟨rfl, rfl⟩

theorem createShortened_shape {tj : Nat → BitVec 64} {sj : BitVec 64} {T : Mem Nat} {n : Nat} {ct : Container} {ht : HashTable}
    {bits : Nat} {T1 : PackedArray} (hht : ct.hashtable = some ht) (hb : positionOfMsb (ct.numUnique + 1) = .ok bits)
    (e : createShortened tj sj T n ct = .ok T1) : T1.bits = bits ∧ T1.length = ct.numSubs + 2 := by
  unfold createShortened at e
  rw [hht] at e
  simp only [hb, ok_bind] at e
  cases h1 : (PackedArray.new (ct.numSubs + 2) bits tj).setValue sj (ct.numSubs + 2 - 1) 0 with
  | error x => rw [h1] at e; cases e
  | ok P1 =>
  rw [h1, ok_bind] at e
  cases h2 : loopDown (n - 1) (⟨P1, TYPE_L, n, ct.numSubs + 2 - 1 - 1⟩ : ShSt) (shStep sj ht T) with
  | error x => rw [h2] at e; cases e
  | ok s =>
  rw [h2, ok_bind] at e
  obtain ⟨a1, a2, _⟩ := PackedArray.setValue_shape h1
  obtain ⟨b1, b2⟩ := loopDown_pres (fun s : ShSt => s.T1.bits = P1.bits ∧ s.T1.length = P1.length) _ h2 ⟨rfl, rfl⟩ (by
    rintro i x y ⟨hx1, hx2⟩ hy
    obtain ⟨c1, c2⟩ := shStep_shape hy
    exact ⟨c1.trans hx1, c2.trans hx2⟩)
  obtain ⟨c1, c2, _⟩ := PackedArray.setValue_shape e
  exact ⟨(c1.trans b1).trans a1, (c2.trans b2).trans a2⟩

theorem createShortenedH_post {tj : Nat → BitVec 64} {sj : BitVec 64} {T : Mem Nat} {n : Nat} {ct : Container} {ht : HashTable}
    {bits : Nat} (hR1 : R .packed) (hR2 : R .words) (hht : ct.hashtable = some ht) (hb : positionOfMsb (ct.numUnique + 1) = .ok bits)
    (a : HL h0 L P h) (hP : h0.total + lbytes L + 32 + (wordsBlk (ct.numSubs + 2) bits).bytes ≤ P) :
    Post R h (createShortened tj sj T n ct) (fun T1 h' => HL h0 (wordsBlk T1.length T1.bits :: packedBlk :: L) P h')
      (createShortenedH tj sj T n ct h) := by
  unfold createShortenedH
  rw [hb]
  refine Post.seqv (v := bits) (Q := fun _ h' => h' = h) ⟨rfl, Step.refl _ _, rfl, rfl⟩ ?_
  rintro _ rfl
  refine Post.seq (newB_le (P := P) hR1 (by simp [Plain]) a.1 a.2 (by rw [lbytes_cons]; show h0.total + (32 + lbytes L) ≤ P; omega)) ?_
  rintro h1 ⟨a1, p1⟩ _ _
  refine Post.seq (mallocUse_le (P := P) (b := wordsBlk (ct.numSubs + 2) bits) hR2 (by simp [Plain]) a1 p1 (by
    rw [lbytes_cons, lbytes_cons]; show h0.total + (_ + (32 + lbytes L)) ≤ P; omega)) ?_
  rintro h2 ⟨a2, p2⟩ _ _
  refine Post.lift ?_
  intro T1 e
  obtain ⟨s1, s2⟩ := createShortened_shape hht hb e
  rw [s1, s2]
  exact ⟨a2, p2⟩

theorem deletePackedH_post {T1 : PackedArray} (a : HL h0 (wordsBlk T1.length T1.bits :: packedBlk :: L) P h) :
    Post R h (.ok ()) (fun _ h' => HL h0 L P h') (deletePackedH T1 h) := by
  unfold deletePackedH
  refine Post.seq (freeB_le (P := P) (by simp [Plain]) a.1 a.2) ?_
  rintro h1 ⟨a1, p1⟩ _ _
  exact freeB_le (by simp [Plain]) a1 p1

theorem deleteTableH_post {ht : HashTable} (a : HL h0 (bufL ht.bufsize ++ (tabL ht.htsize ++ L)) P h) :
    Post R h (.ok ()) (fun _ h' => HL h0 L P h') (deleteTableH ht h) := by
  unfold deleteTableH
  have a1 : Has h0 (restBlk ht.htsize :: headBlk ht.htsize :: (bufL ht.bufsize ++ (tableBlk :: L))) h := by
    refine a.1.perm ?_
    rw [List.perm_iff_count]
    intro x
    simp only [tabL, List.count_cons, List.count_append, List.count_nil]
    omega
  refine Post.seq (freeB_le (P := P) (by simp [Plain]) a1 a.2) ?_
  rintro h1 ⟨a1, p1⟩ _ _
  refine Post.seq (freeB_le (P := P) (by simp [Plain]) a1 p1) ?_
  rintro h2 ⟨a2, p2⟩ _ _
  refine Post.seq (Q := fun _ h' => Has h0 (tableBlk :: L) h' ∧ h'.peak ≤ P) (whenH_post ?_ ?_) ?_
  · intro hc
    unfold bufL at a2
    rw [if_neg hc] at a2
    exact freeB_le (by simp [Plain]) a2 p2
  · intro hc
    unfold bufL at a2
    rw [if_pos (by simpa using hc)] at a2
    exact ⟨a2, p2⟩
  · rintro h3 ⟨a3, p3⟩ _ _
    exact freeB_le (by simp [Plain]) a3 p3

/-- the roles of the blocks requested after the release of the text -/
def RB (r : Role) : Prop := RI r ∨ r = .sa ∨ r = .counters

/-- bounds for the second half of the call -/
structure BB (h0 : Heap) (L : List Blk) (P : Nat) (ct : Container) : Prop where
  w1 : 1 ≤ ct.bwpWidth
  w2 : ct.bwpWidth ≤ 63
  n : ct.numSubs + 1 < 2 ^ 63
  u : ct.numUnique ≤ ct.numSubs
  P : h0.total + lbytes L + 32 * (ct.numSubs + 3) + 32 + 774 * 56 + (ct.n + 1) + 16 + qmax (ct.numSubs + 1) * qbytes ct.bwpWidth ≤ P

theorem parts_le {S : Type} [SaBlocks S] {r : Role} (k : Nat) (hS : (SaBlocks.parts S).sum ≤ 8) : lbytes (arrBlks S r k) ≤ 8 * k := by
  have : lbytes (arrBlks S r k) = (SaBlocks.parts S).sum * k := by
    unfold arrBlks
    induction SaBlocks.parts S with
    | nil => simp [lbytes]
    | cons p l ih => rw [List.map_cons, lbytes_cons, ih, List.sum_cons, Nat.add_mul, Nat.mul_comm k p]
  rw [this]
  exact Nat.mul_le_mul_right k hS

theorem branchH_post {S : Type} [SaStore S] [SaBlocks S] {w : World} {s : Mem Nat} {T1 : PackedArray} {ht : HashTable} {ct : Container}
    (hS : (SaBlocks.parts S).sum ≤ 8) (hR : ∀ r, RB r → R r) (B : BB h0 L P ct) (hT : T1.length = ct.numSubs + 2) (hb : T1.bits ≤ 64)
    (a : HL h0 (wordsBlk T1.length T1.bits :: packedBlk :: ptrsBlk ct.numUnique :: L) P h) :
    Post R h (branch S w s T1 ht ct) (fun _ h' => HL h0 (resultBlk :: bwtBlk ct.n :: L) P h') (branchH S w s T1 ht ct h) := by
  have hBP := B.P
  have hu := B.u
  have hsa := parts_le (S := S) (r := .sa) (ct.numSubs + 2) hS
  have hcn := parts_le (S := S) (r := .counters) (ct.numSubs + 2) hS
  have hwb : (wordsBlk T1.length T1.bits).bytes ≤ 8 * (ct.numSubs + 3) := by
    show (T1.length * T1.bits / 64 + 1) * 8 ≤ _
    rw [hT]
    have : (ct.numSubs + 2) * T1.bits / 64 ≤ ct.numSubs + 2 := by
      apply Nat.div_le_of_le_mul
      have := Nat.mul_le_mul_left (ct.numSubs + 2) hb
      omega
    omega
  have hpb : (ptrsBlk ct.numUnique).bytes ≤ 8 * (ct.numSubs + 2) := by
    show (ct.numUnique + 2) * 8 ≤ _
    omega
  have hpk : packedBlk.bytes = 32 := rfl
  unfold branch branchH
  refine Post.seq (newAllH_le (P := P) _ (fun b hb => ?_) a.1 a.2 ?_) ?_
  · have := arrBlks_mem hb
    rw [this]
    exact ⟨hR _ (Or.inr (Or.inl rfl)), by simp [Plain, this], rfl⟩
  · rw [lbytes_append, lbytes_cons, lbytes_cons, lbytes_cons]
    omega
  rintro h1 a1 _ _
  refine Post.bind (saisH_post (L := _) (k0 := ct.numSubs + 2) (hR _ (Or.inr (Or.inr rfl))) ?_ 64 a1 (by omega) (by omega)) ?_
  · rw [lbytes_append, lbytes_cons, lbytes_cons, lbytes_cons]
    omega
  intro st h2 _ a2 _ _
  refine Post.liftBind ?_
  intro sa _
  refine Post.liftBind ?_
  intro sa _
  have a2' : Has h0 (ptrsBlk ct.numUnique :: wordsBlk T1.length T1.bits :: packedBlk :: (arrBlks S .sa (ct.numSubs + 2) ++ L)) h2 := by
    refine a2.1.perm ?_
    rw [List.perm_iff_count]
    intro x
    simp only [List.count_cons, List.count_append]
    omega
  refine Post.seq (freeB_le (P := P) (by simp [Plain]) a2' a2.2) ?_
  rintro h3 a3 _ _
  refine Post.seq (deletePackedH_post a3) ?_
  rintro h4 a4 _ _
  have w2 := B.w2
  exact induceBwtH_post (fun r hr => hR r (Or.inl hr)) B.w1 (by omega) B.n a4.1 a4.2 (by
    show h0.total + lbytes L + lbytes (arrBlks S Role.sa (ct.numSubs + 2)) + 774 * 56 + (ct.n + 1) + 16 +
      qmax (ct.numSubs + 1) * qbytes ct.bwpWidth ≤ P
    omega)

theorem someH_post {α : Type _} {x : H α} {m : M α} {Q : α → Heap → Prop} (p : Post R h m Q (x h)) :
    Post R h (some <$> m) (fun o h' => ∃ a, o = some a ∧ Q a h') (someH x h) := by
  unfold someH
  have := Post.bind (g := fun a => (.ok (some a) : M (Option α))) p (P := fun o h' => ∃ a, o = some a ∧ Q a h')
    (f := fun r => pure (some r)) (fun a h' _ hq _ _ => Post.pure ⟨a, rfl, hq⟩)
  have e : (some <$> m : M (Option α)) = m >>= fun a => .ok (some a) := by cases m <;> rfl
  rw [e]
  exact this

theorem finishH_post {w : World} {s : Mem Nat} {T1 : PackedArray} {ct : Container}
    (hR : ∀ r, RB r → R r) (B : BB h0 L P ct) (hT : T1.length = ct.numSubs + 2) (hb : T1.bits ≤ 64)
    (a : HL h0 (wordsBlk T1.length T1.bits :: packedBlk :: ptrsBlk ct.numUnique :: L) P h) :
    Post R h (finish w s T1 ct) (fun o h' => ∀ r, o = some r → HL h0 (resultBlk :: bwtBlk ct.n :: L) P h') (finishH w s T1 ct h) := by
  have key : ∀ (S : Type) [SaStore S] [SaBlocks S] (ht : HashTable), (SaBlocks.parts S).sum ≤ 8 →
      Post R h (some <$> branch S w s T1 ht ct) (fun o h' => ∀ r, o = some r → HL h0 (resultBlk :: bwtBlk ct.n :: L) P h')
        (someH (branchH S w s T1 ht ct) h) := by
    intro S _ _ ht hS
    refine (someH_post (branchH_post hS hR B hT hb a)).mono ?_
    rintro o h' _ _ _ ⟨a, _, h3⟩ _ _
    exact h3
  unfold finish finishH
  cases ct.hashtable with
  | none => exact ⟨Step.refl _ _, Or.inl ⟨rfl, rfl⟩⟩
  | some ht =>
    simp only
    refine Post.liftBind ?_
    intro bits _
    by_cases h1 : bits < 32
    · rw [if_pos h1, if_pos h1]; exact key S32 ht (by decide)
    rw [if_neg h1, if_neg h1]
    by_cases h1 : bits < 40
    · rw [if_pos h1, if_pos h1]; exact key S40 ht (by decide)
    rw [if_neg h1, if_neg h1]
    by_cases h1 : bits < 48
    · rw [if_pos h1, if_pos h1]; exact key S48 ht (by decide)
    rw [if_neg h1, if_neg h1]
    by_cases h1 : bits < 56
    · rw [if_pos h1, if_pos h1]; exact key S56 ht (by decide)
    rw [if_neg h1, if_neg h1]
    by_cases h1 : bits < 64
    · rw [if_pos h1, if_pos h1]; exact key S64 ht (by decide)
    rw [if_neg h1, if_neg h1]
    exact Post.pure (fun r e => by cases e)

end
end Flbwt
