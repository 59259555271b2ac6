import Verif.HeapSais

/-!
# `extract_LMS_strings`, `sort_LMS_strings`, `create_shortened_string` and the heap (proof helpers)
-/

namespace Flbwt

section
variable {R : Role → Prop} {h h0 : Heap} {L : List Blk} {P : Nat}

/-- the roles of the blocks of the table -/
def RT (r : Role) : Prop := r = .table ∨ r = .rest ∨ r = .head ∨ r = .buf

/-- the buffer of the table -/
def bufL (b : Nat) : List Blk := List.replicate (if b = 0 then 0 else 1) ⟨.buf, b⟩

theorem lbytes_bufL (b : Nat) : lbytes (bufL b) = b := by
  unfold bufL
  rw [lbytes_replicate]
  split <;> simp_all

/-- the blocks of the table other than the buffer -/
def tabL (htsize : Nat) : List Blk := [headBlk htsize, restBlk htsize, tableBlk]

theorem lbytes_tabL (k : Nat) : lbytes (tabL k) = 16 * k + 64 := by
  simp [tabL, lbytes]; omega

/-- the table owns its blocks -/
structure TabOwn (h0 : Heap) (L : List Blk) (P k : Nat) (ht : HashTable) (h : Heap) : Prop where
  size : ht.htsize = k
  has : Has h0 (bufL ht.bufsize ++ (tabL k ++ L)) h
  peak : h.peak ≤ max P (h0.total + lbytes (tabL k ++ L) + 2 * ht.bufsize)

theorem TabOwn.congr {k : Nat} {ht ht' : HashTable} (o : TabOwn h0 L P k ht h) (h1 : ht'.htsize = ht.htsize)
    (h2 : ht'.bufsize = ht.bufsize) : TabOwn h0 L P k ht' h :=
  ⟨h1.trans o.size, by rw [h2]; exact o.has, by rw [h2]; exact o.peak⟩

theorem H.bind_assoc {α β γ : Type _} (x : H α) (f : α → H β) (g : β → H γ) (h : Heap) :
    ((x >>= f) >>= g) h = (x >>= fun a => f a >>= g) h := by
  rw [H.bind_def, H.bind_def, H.bind_def]
  rcases x h with ⟨r, h1⟩
  cases r <;> rfl

theorem newTableH_post {k n : Nat} (hR : ∀ r, RT r → R r) (a : Has h0 L h) (hp : h.peak ≤ P) :
    Post R h (HashTable.new k n) (fun ht h' => TabOwn h0 L P k ht h' ∧ ht.bufsize = 0) (newTableH k n h) := by
  have hr1 : R tableBlk.role := hR _ (Or.inl rfl)
  have hr2 : R (restBlk k).role := hR _ (Or.inr (Or.inl rfl))
  have hr3 : R (headBlk k).role := hR _ (Or.inr (Or.inr (Or.inl rfl)))
  have key : Post R h (.ok ()) (fun _ h' => Has h0 (tabL k ++ L) h' ∧ h'.peak ≤ max P (h0.total + lbytes (tabL k ++ L)))
      ((do newB .obj tableBlk; onBadAlloc (do newB .arr (restBlk k); newB .arr (headBlk k)) (freeB .obj tableBlk) : H Unit) h) := by
    simp only [H.bind_def, newB, onBadAlloc, Role.fam, if_true]
    by_cases c1 : h.av h.reqs tableBlk = true
    · simp only [c1, if_true]
      have a1 := a.got tableBlk
      by_cases c2 : (h.got tableBlk).av (h.got tableBlk).reqs (restBlk k) = true
      · simp only [c2, if_true]
        have a2 := a1.got (restBlk k)
        by_cases c3 : ((h.got tableBlk).got (restBlk k)).av ((h.got tableBlk).got (restBlk k)).reqs (headBlk k) = true
        · simp only [c3, if_true]
          refine ⟨rfl, ((got_step (by simp)).trans (got_step (by simp))).trans (got_step (by simp)), rfl, a2.got _, ?_⟩
          have ht := a.total
          have hl := lbytes_tabL k
          rw [lbytes_append, hl]
          unfold lbytes
          simp only [Heap.got, Heap.add]
          omega
        · simp only [c3, Bool.false_eq_true, if_false]
          have a2' := ((a2.perm (List.Perm.swap _ _ _)))
          have hpos : 1 ≤ ((h.got tableBlk).got (restBlk k)).refused.live tableBlk := a2'.pos
          unfold freeB
          rw [if_pos (by rfl), if_pos hpos]
          exact ⟨(((got_step (by simp)).trans (got_step (by simp))).trans (refused_step hr3 c3)).trans (sub_step (by simp)),
            by simp [Heap.refused, Heap.got, Heap.add, Heap.sub]⟩
      · simp only [c2, Bool.false_eq_true, if_false]
        have hpos : 1 ≤ (h.got tableBlk).refused.live tableBlk := a1.pos
        unfold freeB
        rw [if_pos (by rfl), if_pos hpos]
        exact ⟨((got_step (by simp)).trans (refused_step hr2 c2)).trans (sub_step (by simp)),
          by simp [Heap.refused, Heap.got, Heap.add, Heap.sub]⟩
    · simp only [c1, Bool.false_eq_true, if_false]
      exact ⟨refused_step hr1 c1, by simp [Heap.refused]⟩
  have : Post R h (HashTable.new k n) (fun ht h' => TabOwn h0 L P k ht h' ∧ ht.bufsize = 0)
      (((do newB .obj tableBlk; onBadAlloc (do newB .arr (restBlk k); newB .arr (headBlk k)) (freeB .obj tableBlk) : H Unit) >>= fun _ =>
        H.lift (HashTable.new k n)) h) := by
    refine Post.seq key ?_
    rintro h1 ⟨a1, p1⟩ _ _
    refine Post.lift ?_
    intro ht e
    unfold HashTable.new at e
    cases hx : positionOfMsb (n / 2 + 1) with
    | error x => simp only [hx] at e; cases e
    | ok b =>
      simp only [hx] at e
      cases e
      exact ⟨⟨rfl, a1, by simpa using p1⟩, rfl⟩
  rw [H.bind_assoc] at this
  exact this

theorem linkBlock_size {ht ht' : HashTable} {b q : Nat} {r : Option Nat} {q2 : Nat} (e : HashTable.linkBlock ht b q r q2 = .ok ht') :
    ht'.htsize = ht.htsize ∧ ht'.bufsize = ht.bufsize := by
  unfold HashTable.linkBlock at e
  split at e
  · cases hx : ht.head.wr b q2 with
    | error x => rw [hx] at e; cases e
    | ok y => rw [hx] at e; cases e; exact ⟨rfl, rfl⟩
  · split at e
    · cases e
    · rename_i pp
      cases hx : HashTable.setPointer ht.buf pp q2 with
      | error x => rw [hx] at e; cases e
      | ok y => rw [hx] at e; cases e; exact ⟨rfl, rfl⟩

private theorem okBind {α β : Type} (a : α) (f : α → M β) : ((Except.ok a : M α) >>= f) = f a := rfl

theorem makeRoom_size {junk : Fresh} {ht : HashTable} {b q : Nat} {r : Option Nat} {space rest : Nat} {lim : Int} {x : HashTable × Nat}
    (er : ht.rest.rd b = .ok rest) (el : HashTable.spaceLimit rest = .ok lim) (e : HashTable.makeRoom junk ht b q r space = .ok x) :
    x.1.htsize = ht.htsize ∧ x.1.bufsize = ht.bufsize + if toI64 (space : Int) ≥ lim then ht.hbsize + space else 0 := by
  unfold HashTable.makeRoom at e
  rw [er, okBind, el, okBind] at e
  generalize toI64 (space : Int) = sp at e ⊢
  split at e
  · rename_i hc
    rw [if_pos hc]
    cases h1 : reallocBytes junk ht.buf (ht.bufsize + ht.hbsize + space) with
    | error x => rw [h1] at e; cases e
    | ok buf =>
    rw [h1] at e
    change (ht.rest.wr b (ht.hbsize + space) >>= _) = _ at e
    cases h2 : ht.rest.wr b (ht.hbsize + space) with
    | error x => rw [h2] at e; cases e
    | ok rs =>
    rw [h2] at e
    change (HashTable.linkBlock { ht with buf := buf, bufsize := ht.bufsize + (ht.hbsize + space), rest := rs } b q r (ht.bufsize + 1) >>= _) = _ at e
    cases h3 : HashTable.linkBlock { ht with buf := buf, bufsize := ht.bufsize + (ht.hbsize + space), rest := rs } b q r (ht.bufsize + 1) with
    | error x => rw [h3] at e; cases e
    | ok ht' =>
      rw [h3] at e
      cases e
      have := linkBlock_size h3
      exact this
  · rename_i hc
    rw [if_neg hc]
    split at e
    · cases e
    · cases e; exact ⟨rfl, rfl⟩

/-- the buffer is enlarged -/
theorem buf_grow {k : Nat} {ht : HashTable} {add : Nat} (hR : R .buf) (hadd : 0 < add) (o : TabOwn h0 L P k ht h) :
    Post R h (.ok ()) (fun _ h' => Has h0 (bufL (ht.bufsize + add) ++ (tabL k ++ L)) h' ∧
      h'.peak ≤ max P (h0.total + lbytes (tabL k ++ L) + 2 * (ht.bufsize + add))) (reallocB ht.bufsize (ht.bufsize + add) h) := by
  refine (reallocB_post hR o.has).mono ?_
  rintro _ h1 _ _ _ ⟨a1, p1⟩
  refine ⟨?_, ?_⟩
  · have : bufL (ht.bufsize + add) = [⟨.buf, ht.bufsize + add⟩] := by
      unfold bufL
      rw [if_neg (by omega)]; rfl
    rw [this]
    exact a1
  · have h1 := o.has.total
    have h2 : ((bufL ht.bufsize ++ (tabL k ++ L)).map Blk.bytes).sum = ht.bufsize + lbytes (tabL k ++ L) := by
      have := lbytes_append (bufL ht.bufsize) (tabL k ++ L)
      rw [lbytes_bufL] at this
      exact this
    have := o.peak
    omega

theorem makeRoomH_post {k : Nat} {junk : Fresh} {ht : HashTable} {b q : Nat} {r : Option Nat} {space : Nat} (hR : ∀ r, RT r → R r)
    (hs : 0 < space) (o : TabOwn h0 L P k ht h) :
    Post R h (HashTable.makeRoom junk ht b q r space) (fun x h' => TabOwn h0 L P k x.1 h') (makeRoomH junk ht b q r space h) := by
  unfold makeRoomH
  cases hr : ht.rest.rd b with
  | error x =>
    unfold HashTable.makeRoom
    rw [hr]
    exact ⟨Step.refl _ _, Or.inl ⟨rfl, rfl⟩⟩
  | ok rest =>
    refine Post.seqv (v := rest) (Q := fun _ h' => h' = h) ⟨rfl, Step.refl _ _, rfl, rfl⟩ ?_
    rintro _ rfl
    cases hl : HashTable.spaceLimit rest with
    | error x =>
      unfold HashTable.makeRoom
      rw [hr, okBind, hl]
      exact ⟨Step.refl _ _, Or.inl ⟨rfl, rfl⟩⟩
    | ok lim =>
    refine Post.seqv (v := lim) (Q := fun _ h' => h' = _) ⟨rfl, Step.refl _ _, rfl, rfl⟩ ?_
    rintro _ rfl
    have hms := fun x e => makeRoom_size (junk := junk) (q := q) (r := r) (space := space) (x := x) hr hl e
    generalize toI64 (space : Int) = sp at hms ⊢
    refine Post.seq (Q := fun _ h' => Has h0 (bufL (ht.bufsize + if sp ≥ lim then ht.hbsize + space else 0) ++
      (tabL k ++ L)) h' ∧ h'.peak ≤ max P (h0.total + lbytes (tabL k ++ L) + 2 * (ht.bufsize +
        if sp ≥ lim then ht.hbsize + space else 0))) (whenH_post ?_ ?_) ?_
    · intro hc
      rw [if_pos hc, show ht.bufsize + ht.hbsize + space = ht.bufsize + (ht.hbsize + space) by omega]
      exact buf_grow (hR _ (Or.inr (Or.inr (Or.inr rfl)))) (by omega) o
    · intro hc
      rw [if_neg hc]
      exact ⟨o.has, o.peak⟩
    · rintro h1 ⟨a1, p1⟩ _ _
      refine Post.lift ?_
      intro x e
      obtain ⟨m1, m2⟩ := hms _ e
      rw [← m2] at a1 p1
      exact ⟨m1.trans o.size, a1, p1⟩

theorem insertStringH_post {k : Nat} {junk : Fresh} {ht : HashTable} {T : Mem Nat} {m p : Nat} (hR : ∀ r, RT r → R r)
    (o : TabOwn h0 L P k ht h) :
    Post R h (HashTable.insertString junk ht T m p) (fun x h' => TabOwn h0 L P k x.1 h') (insertStringH junk ht T m p h) := by
  unfold HashTable.insertString insertStringH
  refine Post.liftBind ?_
  intro b _
  refine Post.liftBind ?_
  intro q _
  refine Post.liftBind ?_
  intro e _
  cases e with
  | dup coll => exact Post.pure (o.congr rfl rfl)
  | free q r coll =>
    simp only
    refine Post.liftBind ?_
    intro lb _
    refine Post.bind (makeRoomH_post hR (by unfold HashTable.spaceRequired; omega) (o.congr (ht' := { ht with collisions := coll }) rfl rfl)) ?_
    intro x h1 _ o1 _ _
    refine Post.liftBind ?_
    intro buf _
    refine Post.liftBind ?_
    intro rest _
    refine Post.liftBind ?_
    intro rest' _
    exact Post.pure (o1.congr rfl rfl)

theorem exStepH_post {k : Nat} {junk : Fresh} {T : Mem Nat} {i : Nat} {s : ExSt} (hR : ∀ r, RT r → R r)
    (o : TabOwn h0 L P k s.ht h) :
    Post R h (exStep junk T i s) (fun s' h' => TabOwn h0 L P k s'.ht h') (exStepH junk T i s h) := by
  unfold exStep exStepH
  refine Post.liftBind ?_
  intro a _
  refine Post.liftBind ?_
  intro b _
  refine Post.liftBind ?_
  intro M _
  by_cases h1 : a < b
  · rw [if_pos h1, if_pos h1]; exact Post.pure o
  · rw [if_neg h1, if_neg h1]
    by_cases h2 : b < a
    · rw [if_pos h2, if_pos h2]
      refine Post.bind (Q := fun s' h' => TabOwn h0 L P k s'.ht h') ?_ ?_
      · unfold exMaybe exMaybeH
        simp only
        by_cases h3 : s.prev = TYPE_S
        · rw [if_pos h3, if_pos h3]
          unfold exFound exFoundH
          refine Post.liftBind ?_
          intro c _
          refine Post.liftBind ?_
          intro C _
          refine Post.bind (insertStringH_post hR o) ?_
          intro r h4 _ o4 _ _
          exact Post.pure o4
        · rw [if_neg h3, if_neg h3]; exact Post.pure o
      · intro s1 h4 _ o4 _ _
        refine Post.liftBind ?_
        intro NL _
        exact Post.pure o4
    · rw [if_neg h2, if_neg h2]
      by_cases h3 : s.prev = TYPE_L
      · rw [if_pos h3, if_pos h3]
        refine Post.liftBind ?_
        intro NL _
        exact Post.pure o
      · rw [if_neg h3, if_neg h3]; exact Post.pure o

/-- the container owns its table, if any -/
def CtOwn (h0 : Heap) (L : List Blk) (P : Nat) (ct : Container) (h : Heap) : Prop :=
  match ct.hashtable with
  | none => HL h0 L P h
  | some ht => TabOwn h0 L P 67777 ht h

theorem extractRestH_post {junk : Fresh} {T : Mem Nat} {n : Nat} (hR : ∀ r, RT r → R r) (a : HL h0 L P h) :
    Post R h (extractLMS junk T n) (fun ct h' => CtOwn h0 L P ct h') (extractRestH junk T n h) := by
  unfold extractLMS extractRestH
  by_cases hn : n ≤ 2
  · simp only [if_pos hn]; exact Post.pure a
  · simp only [if_neg hn]
    refine Post.bind (newTableH_post hR a.1 a.2) ?_
    rintro ht h1 _ ⟨o1, _⟩ _ _
    refine Post.liftBind ?_
    intro M _
    refine Post.liftBind ?_
    intro c _
    refine Post.liftBind ?_
    intro M' _
    refine Post.liftBind ?_
    intro NL _
    refine Post.liftBind ?_
    intro C _
    refine Post.bind (loopDownH_post (I := fun _ s h' => TabOwn h0 L P 67777 s.ht h') _ _ o1 ?_) ?_
    · intro i s h2 _ o2 _ _
      exact exStepH_post hR o2
    · intro s h2 _ o2 _ _
      exact Post.pure o2

end
end Flbwt
