import Verif.PropsTable
import Verif.HeapMain

/-!
# C87: the life of a `HashTable` when memory runs out
-/

namespace Flbwt

open HashTable (TOp TOut)

/-! ## The client -/

/-- One call, with the heap: only `insert_string` requests memory (src/hashtable.cpp:88-93). The client is that of C72. -/
def TOp.execH (junk : Fresh) (arr : Mem Nat) (ht : HashTable) : TOp → H (HashTable × TOut)
  | .insert s => do
    let r ← insertStringH junk ht (HashTable.ofList s) s.length 0
    pure (r.1, .status r.2)
  | .name s x => H.lift (TOp.exec junk arr ht (.name s x))
  | .find s => H.lift (TOp.exec junk arr ht (.find s))

/-- A history of calls, with the heap. Infrastructure: models the caller, no code of the repository. -/
def TOp.execsH (junk : Fresh) (arr : Mem Nat) (ht : HashTable) : List TOp → H (HashTable × List TOut)
  | [] => pure (ht, [])
  | op :: ops => do
    let r ← TOp.execH junk arr ht op
    let r' ← TOp.execsH junk arr r.1 ops
    pure (r'.1, r.2 :: r'.2)

/-- `t = new HashTable(size, n); …; delete t;`. Infrastructure: models the caller, no code of the repository. -/
def tableLife (size n : Nat) (junk : Fresh) (arr : Mem Nat) (ops : List TOp) : H (List TOut) := do
  let ht ← newTableH size n
  let r ← TOp.execsH junk arr ht ops
  deleteTableH r.1
  pure r.2

/-! ## Proofs -/

/-- never ends by `std::bad_alloc`. Used in proofs only. -/
def NeverBad {α : Type _} (x : H α) : Prop := ∀ h h', x h ≠ (.error .badAlloc, h')

theorem NeverBad.bind {α β : Type _} {x : H α} {f : α → H β} (hx : NeverBad x) (hf : ∀ a, NeverBad (f a)) : NeverBad (x >>= f) := by
  intro h h' e
  rw [H.bind_def] at e
  rcases hr : x h with ⟨r, h1⟩
  rw [hr] at e
  cases r with
  | ok a => exact hf a _ _ e
  | error y =>
    cases e
    exact hx _ _ hr

theorem NeverBad.lift {α : Type _} (m : M α) : NeverBad (H.lift m) := by
  intro h h' e
  cases m with
  | ok a => cases e
  | error y => cases e

theorem NeverBad.pure {α : Type _} (a : α) : NeverBad (Pure.pure a : H α) := by
  intro h h' e
  cases e

theorem NeverBad.freeB (f : Fam) (b : Blk) : NeverBad (Flbwt.freeB f b) := by
  intro h h' e
  unfold Flbwt.freeB at e
  split at e
  · split at e <;> cases e
  · cases e

theorem NeverBad.when {c : Prop} [Decidable c] {x : H Unit} (hx : NeverBad x) : NeverBad (whenH c x) := by
  unfold whenH
  split
  · exact hx
  · exact NeverBad.pure ()

theorem NeverBad.realloc (o n : Nat) : NeverBad (reallocB o n) := by
  intro h h' e
  unfold reallocB at e
  split at e
  · split at e
    · cases e
    · exact NeverBad.freeB _ _ _ _ e
  · cases e

theorem makeRoomH_neverBad (junk : Fresh) (ht : HashTable) (h q : Nat) (r : Option Nat) (space : Nat) :
    NeverBad (makeRoomH junk ht h q r space) := by
  unfold makeRoomH
  exact NeverBad.bind (NeverBad.lift _) fun _ => NeverBad.bind (NeverBad.lift _) fun _ =>
    NeverBad.bind (NeverBad.when (NeverBad.realloc _ _)) fun _ => NeverBad.lift _

theorem insertStringH_neverBad (junk : Fresh) (ht : HashTable) (T : Mem Nat) (m p : Nat) : NeverBad (insertStringH junk ht T m p) := by
  unfold insertStringH
  refine NeverBad.bind (NeverBad.lift _) fun _ => NeverBad.bind (NeverBad.lift _) fun _ => NeverBad.bind (NeverBad.lift _) fun e => ?_
  cases e with
  | dup c => exact NeverBad.pure _
  | free q r c =>
    exact NeverBad.bind (NeverBad.lift _) fun _ => NeverBad.bind (makeRoomH_neverBad _ _ _ _ _ _) fun _ =>
      NeverBad.bind (NeverBad.lift _) fun _ => NeverBad.bind (NeverBad.lift _) fun _ => NeverBad.bind (NeverBad.lift _) fun _ => NeverBad.pure _

theorem execH_neverBad (junk : Fresh) (arr : Mem Nat) (ht : HashTable) (op : TOp) : NeverBad (TOp.execH junk arr ht op) := by
  cases op with
  | insert s => exact NeverBad.bind (insertStringH_neverBad _ _ _ _ _) fun _ => NeverBad.pure _
  | name s x => exact NeverBad.lift _
  | find s => exact NeverBad.lift _

theorem execsH_neverBad (junk : Fresh) (arr : Mem Nat) : ∀ (ops : List TOp) (ht : HashTable), NeverBad (TOp.execsH junk arr ht ops)
  | [], _ => NeverBad.pure _
  | op :: ops, ht => NeverBad.bind (execH_neverBad junk arr ht op) fun _ => NeverBad.bind (execsH_neverBad junk arr ops _) fun _ => NeverBad.pure _

theorem deleteTableH_neverBad (ht : HashTable) : NeverBad (deleteTableH ht) := by
  unfold deleteTableH
  exact NeverBad.bind (NeverBad.freeB _ _) fun _ => NeverBad.bind (NeverBad.freeB _ _) fun _ =>
    NeverBad.bind (NeverBad.when (NeverBad.freeB _ _)) fun _ => NeverBad.freeB _ _

/-- what the constructor leaves behind when it throws -/
theorem newTableH_bad {k n : Nat} {h h' : Heap} (e : newTableH k n h = (.error .badAlloc, h')) :
    (∀ b, h'.live b = h.live b) ∨
    (∀ b, h'.live b = h.live b + if b = restBlk k then 1 else 0) ∧
      (h.av (h.reqs + 2) (headBlk k) = false ∧ h.av (h.reqs + 1) (restBlk k) = true ∧ h.av h.reqs tableBlk = true) := by
  have nb := NeverBad.lift (HashTable.new k n)
  unfold newTableH at e
  simp only [H.bind_def, newB, onBadAlloc, Role.fam, if_true] at e
  by_cases c1 : h.av h.reqs tableBlk = true
  · simp only [c1, if_true] at e
    by_cases c2 : (h.got tableBlk).av (h.got tableBlk).reqs (restBlk k) = true
    · simp only [c2, if_true] at e
      by_cases c3 : ((h.got tableBlk).got (restBlk k)).av ((h.got tableBlk).got (restBlk k)).reqs (headBlk k) = true
      · simp only [c3, if_true] at e
        exact absurd e (nb _ _)
      · simp only [c3, Bool.false_eq_true, if_false] at e
        have hpos : 1 ≤ ((h.got tableBlk).got (restBlk k)).refused.live tableBlk := by
          simp [Heap.refused, Heap.got, Heap.add]
        unfold freeB at e
        rw [if_pos (by rfl), if_pos hpos] at e
        cases e
        refine Or.inr ⟨fun b => ?_, by
          have c3' : ¬ h.av (h.reqs + 2) (headBlk k) = true := c3
          simpa using c3', c2, c1⟩
        simp only [Heap.refused, Heap.got, Heap.add, Heap.sub]
        by_cases hb : b = tableBlk
        · subst hb; simp
        · simp only [hb, if_false]
          split <;> rfl
    · simp only [c2, Bool.false_eq_true, if_false] at e
      have hpos : 1 ≤ (h.got tableBlk).refused.live tableBlk := by simp [Heap.refused, Heap.got, Heap.add]
      unfold freeB at e
      rw [if_pos (by rfl), if_pos hpos] at e
      cases e
      refine Or.inl fun b => ?_
      simp only [Heap.refused, Heap.got, Heap.add, Heap.sub]
      by_cases hb : b = tableBlk
      · subst hb; simp
      · simp [hb]
  · simp only [c1, Bool.false_eq_true, if_false] at e
    cases e
    exact Or.inl fun _ => rfl

section
variable {R : Role → Prop} {h h0 : Heap} {L : List Blk} {P : Nat}

theorem exec_name_shape {junk : Fresh} {arr : Mem Nat} {ht : HashTable} {s : List Nat} {x : Nat} {r : HashTable × TOut}
    (e : TOp.exec junk arr ht (.name s x) = .ok r) : r.1.htsize = ht.htsize ∧ r.1.bufsize = ht.bufsize := by
  have : Tot (TOp.exec junk arr ht (.name s x)) (fun y => y = r) := by rw [e]; rfl
  simp only [TOp.exec, Tot_bind] at this
  obtain ⟨a, _, h2⟩ := Tot_iff.1 this
  obtain ⟨b, _, h3⟩ := Tot_iff.1 h2
  rw [Tot_ok] at h3
  subst h3
  exact ⟨rfl, rfl⟩

theorem exec_find_shape {junk : Fresh} {arr : Mem Nat} {ht : HashTable} {s : List Nat} {r : HashTable × TOut}
    (e : TOp.exec junk arr ht (.find s) = .ok r) : r.1 = ht := by
  simp only [TOp.exec] at e
  split at e <;> cases e <;> rfl

theorem execH_post {k : Nat} {junk : Fresh} {arr : Mem Nat} {ht : HashTable} (op : TOp) (hR : ∀ r, RT r → R r)
    (o : TabOwn h0 L P k ht h) :
    Post R h (TOp.exec junk arr ht op) (fun r h' => TabOwn h0 L P k r.1 h') (TOp.execH junk arr ht op h) := by
  cases op with
  | insert s =>
    refine Post.bind (insertStringH_post hR o) ?_
    rintro r h' _ o' _ _
    exact Post.pure o'
  | name s x =>
    refine Post.lift ?_
    intro r e
    obtain ⟨e1, e2⟩ := exec_name_shape e
    exact o.congr e1 e2
  | find s =>
    refine Post.lift ?_
    intro r e
    rw [exec_find_shape e]
    exact o

theorem execsH_post {k : Nat} {junk : Fresh} {arr : Mem Nat} (hR : ∀ r, RT r → R r) (ops : List TOp) : ∀ {h : Heap} {ht : HashTable},
    TabOwn h0 L P k ht h →
    Post R h (TOp.execs junk arr ht ops) (fun r h' => TabOwn h0 L P k r.1 h') (TOp.execsH junk arr ht ops h) := by
  induction ops with
  | nil => intro h ht o; exact Post.pure o
  | cons op ops ih =>
    intro h ht o
    unfold TOp.execs TOp.execsH
    refine Post.bind (execH_post op hR o) ?_
    rintro r h1 _ o1 _ _
    refine Post.bind (ih o1) ?_
    rintro r' h2 _ o2 _ _
    exact Post.pure o2

end

/-- C87: a program creates a table with at least one slot, performs any history of `insert_string`, `set_name` and `find_name` on
it and deletes it; memory can be refused at any moment. If it comes to the end, the results are those of a finite map (as in
C72), exactly the memory requested has been released, no request was refused, and at no moment were more than
`16 * size + 64` bytes and twice the bytes of the records in use. It fails only if a request is refused: the constructor throws
`std::bad_alloc`, and has then released everything or everything but the `8 * size` bytes of one array; once the table
exists nothing throws `bad_alloc`: a refused request is a null dereference. -/
theorem C87_table_life (size n : Nat) (h0 : 0 < size) (hn : n < 2 ^ 64) (junk : Fresh) (arr : Mem Nat)
    (ops : List TOp) (hok : ∀ op ∈ ops, op.okFor junk n) (hmem : junk.Room (TOp.need ops)) (harr : TOp.inserts ops ≤ arr.size) (h : Heap) :
    match tableLife size n junk arr ops h with
    | (.ok outs, h') => TOp.agrees (fun _ => none) ops outs ∧ (∀ b, h'.live b = h.live b) ∧ h'.total = h.total ∧ h'.failed = h.failed ∧
        h'.peak ≤ max h.peak (h.total + 16 * size + 64 + 2 * TOp.need ops)
    | (.error .badAlloc, h') => h.failed < h'.failed ∧ (∃ k b, h.av k b = false) ∧ newTableH size n h = (.error .badAlloc, h') ∧
        ((∀ b, h'.live b = h.live b) ∨ ∀ b, h'.live b = h.live b + if b = ⟨.rest, 8 * size⟩ then 1 else 0)
    | (.error e, h') => h.failed < h'.failed ∧ (∃ k b, h.av k b = false) ∧ e = .prog (.ub .nullDeref) := by
  have hR : ∀ r, RT r → (fun _ => True) r := fun _ _ => trivial
  obtain ⟨ht0, e0, ⟨own, ents, E, g, he⟩, hb, hname⟩ := Tot_iff.1 (HashTable.new_holds size n h0 hn)
  obtain ⟨⟨ht1, outs⟩, e1, hag, tbl, own', ents', E', _, _, _, hbs⟩ := Tot_iff.1
    (HashTable.Holds.execs junk arr n ops ht0 _ own ents E g hname (by omega) (by rw [he]; simpa using harr) hok)
  unfold tableLife
  rw [H.bind_def]
  have hp := newTableH_post (R := fun _ => True) (k := size) (n := n) (P := h.peak) hR (Has.nil h) (Nat.le_refl _)
  have hbad := fun h' => newTableH_bad (k := size) (n := n) (h := h) (h' := h')
  generalize hz : newTableH size n h = z at hp hbad
  rcases z with ⟨z | ht, h1⟩
  · cases z with
    | badFree => exact hp.elim
    | badAlloc =>
      refine ⟨hp.2, (hp.1.why hp.2).imp fun _ x => x.imp fun _ y => y.2, rfl, (hbad _ rfl).imp id fun x => ?_⟩
      have := x.1
      rwa [show restBlk size = ⟨.rest, 8 * size⟩ by unfold restBlk; rw [Nat.mul_comm]] at this
    | prog e =>
      obtain ⟨st, ⟨p1, _⟩ | ⟨p1, p2⟩⟩ := hp
      · rw [p1] at e0; cases e0
      · exact ⟨p2, (st.why p2).imp fun _ x => x.imp fun _ y => y.2, by rw [p1]⟩
  · obtain ⟨p1, s1, p3, o1, _⟩ := hp
    rw [p1] at e0
    cases e0
    dsimp only
    rw [H.bind_def]
    have hp2 := execsH_post (R := fun _ => True) (junk := junk) (arr := arr) hR ops o1
    have hnb := execsH_neverBad junk arr ops ht0 h1
    generalize TOp.execsH junk arr ht0 ops h1 = z at hp2 hnb
    rcases z with ⟨z | r, h2⟩
    · cases z with
      | badFree => exact hp2.elim
      | badAlloc => exact absurd rfl (hnb h2)
      | prog e =>
        obtain ⟨st, ⟨q1, _⟩ | ⟨q1, q2⟩⟩ := hp2
        · rw [q1] at e1; cases e1
        · refine ⟨by rw [p3] at q2; exact q2, ?_, by rw [q1]⟩
          obtain ⟨k, b, _, hb⟩ := st.why q2
          exact ⟨k, b, by rw [← s1.av]; exact hb⟩
    · obtain ⟨q1, _, q3, o2⟩ := hp2
      rw [q1] at e1
      cases e1
      dsimp only at hbs hag o2 ⊢
      rw [H.bind_def]
      have a2 : HL h (bufL ht1.bufsize ++ (tabL ht1.htsize ++ [])) (max h.peak (h.total + 16 * size + 64 + 2 * TOp.need ops)) h2 := by
        refine ⟨by rw [o2.size]; exact o2.has, ?_⟩
        have := o2.peak
        rw [lbytes_append, lbytes_tabL] at this
        have hz : lbytes [] = 0 := rfl
        omega
      have hp3 := deleteTableH_post (R := fun _ => False) a2
      generalize deleteTableH ht1 h2 = z at hp3
      rcases z with ⟨z | r, h3⟩
      · exfalso
        have no : Step (fun _ => False) h2 h3 → ¬ h2.failed < h3.failed := fun s f => by
          obtain ⟨_, _, f, _⟩ := s.why f
          exact f
        cases z with
        | badFree => exact hp3.elim
        | badAlloc => exact no hp3.1 hp3.2
        | prog e =>
          obtain ⟨s, ⟨p1, _⟩ | ⟨_, p2⟩⟩ := hp3
          · cases p1
          · exact no s p2
      · obtain ⟨_, _, r3, a3, r4⟩ := hp3
        exact ⟨hag, fun b => by rw [a3.live]; simp, by rw [a3.total]; simp, by rw [r3, q3, p3], r4⟩

/-- C87: the leak of the constructor happens: whatever the size, if the second array is refused the first one stays. -/
theorem C87_constructor_leaks (size n : Nat) (junk : Fresh) (arr : Mem Nat) (ops : List TOp) (h : Heap)
    (h1 : h.av h.reqs ⟨.table, 64⟩ = true) (h2 : h.av (h.reqs + 1) ⟨.rest, size * 8⟩ = true)
    (h3 : h.av (h.reqs + 2) ⟨.head, size * 8⟩ = false) :
    ∃ h', tableLife size n junk arr ops h = (.error .badAlloc, h') ∧
      ∀ b, h'.live b = h.live b + if b = ⟨.rest, size * 8⟩ then 1 else 0 := by
  have e : newTableH size n h = (.error .badAlloc, (((h.got tableBlk).got (restBlk size)).refused).sub tableBlk) := by
    unfold newTableH
    have c2 : (h.got tableBlk).av (h.got tableBlk).reqs (restBlk size) = true := h2
    have c3 : ¬ ((h.got tableBlk).got (restBlk size)).av ((h.got tableBlk).got (restBlk size)).reqs (headBlk size) = true := by
      show ¬ h.av (h.reqs + 2) (headBlk size) = true
      rw [h3]; simp
    have hpos : 1 ≤ ((h.got tableBlk).got (restBlk size)).refused.live tableBlk := by
      simp [Heap.refused, Heap.got, Heap.add]
    simp only [H.bind_def, newB, onBadAlloc, Role.fam, if_true, h1, c2, c3, Bool.false_eq_true, if_false, freeB]
    rw [if_pos hpos]
  refine ⟨_, by unfold tableLife; rw [H.bind_def, e], fun b => ?_⟩
  simp only [Heap.refused, Heap.got, Heap.add, Heap.sub]
  by_cases hb : b = tableBlk
  · subst hb; simp
  · simp only [hb, if_false]
    split <;> rfl

/-- The hypotheses are met (a history with duplicates, names and unsuccessful searches, in a single slot, fresh memory full of
255), with unlimited memory … -/
example : (tableLife 1 20 ⟨fun _ => 255, 3000⟩ ⟨2, fun _ => 0⟩ [TOp.insert [1, 2, 3], .name [1, 2, 3] 5, .insert [3, 2, 1], .find [9]]
    ⟨fun _ _ => true, 0, 0, fun _ => 0, 0, 0⟩).2.live ⟨.rest, 8⟩ = 0 := by
  have := C87_table_life 1 20 (by decide) (by decide) ⟨fun _ => 255, 3000⟩ ⟨2, fun _ => 0⟩
    [TOp.insert [1, 2, 3], .name [1, 2, 3] 5, .insert [3, 2, 1], .find [9]] (by
      intro op hop
      simp only [List.mem_cons, List.not_mem_nil, or_false] at hop
      rcases hop with rfl | rfl | rfl | rfl <;> simp [HashTable.TOp.okFor]) (by decide) (by decide)
    ⟨fun _ _ => true, 0, 0, fun _ => 0, 0, 0⟩
  generalize tableLife _ _ _ _ _ _ = z at this ⊢
  rcases z with ⟨z | outs, h'⟩
  · cases z with
    | badAlloc => obtain ⟨_, ⟨_, _, h⟩, _⟩ := this; cases h
    | badFree => obtain ⟨_, ⟨_, _, h⟩, _⟩ := this; cases h
    | prog e => obtain ⟨_, ⟨_, _, h⟩, _⟩ := this; cases h
  · exact this.2.1 _

/-- … and with a second array that is refused. -/
example : ∃ h', tableLife 67777 20 ⟨fun _ => 255, 3000⟩ ⟨2, fun _ => 0⟩ [TOp.insert [1, 2, 3]]
      ⟨fun k _ => k != 2, 0, 0, fun _ => 0, 0, 0⟩ = (.error .badAlloc, h') ∧
      ∀ b, h'.live b = 0 + if b = ⟨.rest, 67777 * 8⟩ then 1 else 0 :=
  C87_constructor_leaks 67777 20 _ _ _ _ rfl rfl rfl

end Flbwt
