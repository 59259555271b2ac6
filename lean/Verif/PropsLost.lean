import Verif.PropsFrame
import Verif.Peak

/-!
# C89: the memory a failed call loses
-/

namespace Flbwt

open FH

/-- as `Framed.asks` and `Framed.blind`, for computations with files. Used in proofs only. -/
structure SteadyF {α : Type} (m : FH α) : Prop where
  asks : ∀ s, Asks s.heap (m s).2.heap
  blind : ∀ (s : FHState) (p : Nat), m { s with heap := s.heap.high p } = ((m s).1, { (m s).2 with heap := (m s).2.heap.high p })

namespace SteadyF
variable {α β : Type}

theorem lift (m : M α) : SteadyF (FH.lift m) := by
  cases m <;> exact ⟨fun s => Asks.refl _, fun _ _ => rfl⟩
theorem fail (e : Err) : SteadyF (FH.fail e : FH α) := ⟨fun _ => Asks.refl _, fun _ _ => rfl⟩
theorem liftH {m : H α} (hm : Framed m) : SteadyF (FH.liftH m) := by
  refine ⟨fun s => ?_, fun s p => ?_⟩
  · exact hm.asks s.heap
  · unfold FH.liftH
    simp only
    rw [hm.blind s.heap p]
theorem bind {m : FH α} {f : α → FH β} (hm : SteadyF m) (hf : ∀ a, SteadyF (f a)) : SteadyF (m >>= f) := by
  refine ⟨fun s => ?_, fun s p => ?_⟩
  · show Asks s.heap (FH.bind m f s).2.heap
    unfold FH.bind
    have h1 := hm.asks s
    rcases hr : m s with ⟨r, s'⟩
    rw [hr] at h1
    cases r with
    | ok a => exact h1.trans ((hf a).asks s')
    | error e => exact h1
  · show FH.bind m f _ = ((FH.bind m f s).1, { (FH.bind m f s).2 with heap := (FH.bind m f s).2.heap.high p })
    unfold FH.bind
    rw [hm.blind s p]
    rcases m s with ⟨r, s'⟩
    cases r with
    | ok a => exact (hf a).blind s' p
    | error e => rfl
theorem close : SteadyF FH.close := by
  refine ⟨fun s => ?_, fun s p => ?_⟩
  · unfold FH.close
    split <;> exact Asks.refl _
  · unfold FH.close
    by_cases hc : 1 ≤ s.streams
    · rw [if_pos hc, if_pos (show 1 ≤ ({ s with heap := s.heap.high p } : FHState).streams from hc)]
    · rw [if_neg hc, if_neg (show ¬ 1 ≤ ({ s with heap := s.heap.high p } : FHState).streams from hc)]
theorem openR (h : Host) (name : String) : SteadyF (FH.openR h name) := by
  refine ⟨fun s => ?_, fun s p => ?_⟩
  · unfold FH.openR
    split
    · split <;> exact Asks.refl _
    · exact Asks.refl _
  · unfold FH.openR
    simp only
    cases s.files name with
    | none => rfl
    | some c =>
      simp only
      split <;> rfl
theorem openW (h : Host) (name : String) : SteadyF (FH.openW h name) := by
  refine ⟨fun s => ?_, fun s p => ?_⟩
  · unfold FH.openW
    split <;> exact Asks.refl _
  · unfold FH.openW
    split <;> rfl
theorem write (h : Host) (name : String) (y : List Nat) : SteadyF (FH.write h name y) := ⟨fun _ => Asks.refl _, fun _ _ => rfl⟩
theorem ite {c : Prop} [Decidable c] {x y : FH α} (hx : SteadyF x) (hy : SteadyF y) : SteadyF (if c then x else y) := by
  split
  · exact hx
  · exact hy

end SteadyF

theorem writeRowsH_steady (h : Host) (name : String) (n : Nat) (r : BwtResult) : SteadyF (writeRowsH h name n r) := by
  unfold writeRowsH
  exact .ite (.bind (.lift _) (fun _ => .write _ _ _)) (.ite (.bind (.lift _) (fun _ => .write _ _ _))
    (.bind (.lift _) (fun _ => .bind (.write _ _ _) (fun _ => .bind (.lift _) (fun _ => .write _ _ _)))))

theorem writeResultH_steady (h : Host) (out : String) (n : Nat) (b : Option BwtResult) : SteadyF (writeResultH h out n b) := by
  unfold writeResultH
  refine .bind (.openW _ _) (fun o => .ite ?_ (.fail _))
  split
  · exact .bind (.liftH (.newB _ _)) (fun _ => .bind (.write _ _ _) (fun _ => .bind (.liftH (.freeB _ _)) (fun _ =>
      .bind (writeRowsH_steady _ _ _ _) (fun _ => .bind .close (fun _ => .liftH (releaseResultH_framed _))))))
  · exact .close

theorem bwtFileH_steady (w : World) (h : Host) (inp out : String) : SteadyF (bwtFileH w h inp out) := by
  unfold bwtFileH
  refine .bind (.openR _ _) (fun c => ?_)
  split
  · exact .fail _
  · refine .bind (.liftH (.mallocB _)) (fun p => .ite ?_ (.bind .close (fun _ => .fail _)))
    exact .bind (.lift _) (fun _ => .ite (.fail _) (.bind .close (fun _ => .bind (.lift _) (fun _ =>
      .bind (.liftH (bwtStringH_framed _ _ _ _)) (fun _ => writeResultH_steady _ _ _ _)))))

theorem high_zero (h : Heap) : h = ({ h with peak := 0 } : Heap).high h.peak := by
  cases h
  simp [Heap.high]

section
variable {T : Mem Nat} {s : List Nat}

/-- **C89** whatever the outcome of a call of `bwt_string` and wherever memory runs out: at its end at most `58·n + 70600000`
bytes more are in use than at its beginning. -/
theorem C89_call (w : World) (g : GoodCall w.junk w.sorter T s) (freeT : Bool) (h : Heap) (ht : TextOwned freeT T h) :
    (bwtStringH w (some T) s.length freeT h).2.total ≤ h.total + 58 * s.length + 70600000 := by
  have F := bwtStringH_framed w (some T) s.length freeT
  have ht0 : TextOwned freeT T { h with peak := 0 } := ht
  have e := F.blind { h with peak := 0 } h.peak
  rw [← high_zero] at e
  have a := (F.asks { h with peak := 0 }).total
  have p := C50_linear_memory_any_outcome w g freeT { h with peak := 0 } ht0
  rw [e]
  show (bwtStringH w (some T) s.length freeT { h with peak := 0 }).2.total ≤ _
  simp only at a p
  omega

/-- **C89** a call that returns: exactly the bytes of the result are added, and those of the text removed if the caller asked for it -/
theorem C89_return (w : World) (g : GoodCall w.junk w.sorter T s) (freeT : Bool) (h : Heap) (ht : TextOwned freeT T h) {r h'}
    (e : bwtStringH w (some T) s.length freeT h = (.ok r, h')) :
    h'.total + (if freeT then T.size else 0) = h.total + s.length + 17 ∧ h'.failed = h.failed := by
  have o := bwtStringH_outcome w g freeT h ht
  rw [e] at o
  cases o with
  | done r h' hr hf has =>
    have := has.1.total
    refine ⟨?_, hf⟩
    rw [this]
    have e2 : ((([resultBlk, bwtBlk s.length] : List Blk).map Blk.bytes).sum) = s.length + 17 := by
      simp only [List.map_cons, List.map_nil, List.sum_cons, List.sum_nil]
      omega
    rw [e2]
    cases freeT with
    | false => simp only [withoutText, Bool.false_eq_true, if_false]; omega
    | true =>
      have h2 := (ht rfl).2
      simp only [withoutText, if_true, Heap.sub]
      omega

end

section
variable {w : World} {h : Host} {inp out : String} {s : FHState} {content : List Nat}

/-- **C89** the same for `bwt_file`, also if the output cannot be opened -/
theorem C89_file (g : FileCallH w h inp s content) :
    (bwtFileH w h inp out s).2.heap.total ≤ s.heap.total + 59 * content.length + 70600001 := by
  have F := bwtFileH_steady w h inp out
  have g0 : FileCallH w h inp { s with heap := { s.heap with peak := 0 } } content :=
    ⟨g.file, g.read, g.tell, g.full, g.len3, g.len57, g.byte, g.sort, g.safe, g.room⟩
  have e := F.blind { s with heap := { s.heap with peak := 0 } } s.heap.peak
  have e0 : ({ s with heap := s.heap } : FHState) = { s with heap := ({ s.heap with peak := 0 } : Heap).high s.heap.peak } := by
    rw [← high_zero]
  have a := (F.asks { s with heap := { s.heap with peak := 0 } }).total
  have p := C57_linear_memory_any_outcome (out := out) g0
  have e1 : (bwtFileH w h inp out s).2.heap.total =
      (bwtFileH w h inp out { s with heap := { s.heap with peak := 0 } }).2.heap.total := by
    show (bwtFileH w h inp out { s with heap := s.heap }).2.heap.total = _
    rw [e0, e]
    rfl
  rw [e1]
  generalize bwtFileH w h inp out { s with heap := { s.heap with peak := 0 } } = z at a p ⊢
  simp only at a p
  omega

/-- **C89** a call of `bwt_file` that returns has released all it requested -/
theorem C89_file_return (g : FileCallH w h inp s content) {s' : FHState} (e : bwtFileH w h inp out s = (.ok (), s')) :
    s'.heap.total = s.heap.total := by
  rcases bwtFileH_upto g out with ⟨_, x⟩ | ⟨_, _, x, _⟩ | ⟨r, h', x, hs, hbw, _, hav, ht, hp, hl⟩
  · rw [x] at e; cases e
  · rw [x] at e; cases e
  · by_cases hw : h.mayWrite out = true
    · have l1 : 1 ≤ h'.live (bwtBlk content.length) := by rw [hl]; simp
      have l2 : 1 ≤ h'.live resultBlk := by rw [hl]; simp
      have h57 := g.len57
      rcases writeResultH_run h out (by omega) hs (by have := hbw.last_lt; omega)
        { s with heap := h' } l1 l2 hw with ⟨c, y⟩ | ⟨l, s2, _, y, _, _, _, ⟨_, t⟩, _⟩
      · rw [x, y] at e; cases e
      · rw [x, y] at e
        cases e
        rw [t]
        simp only
        omega
    · rw [x] at e
      unfold writeResultH at e
      rw [runH_ok (a := false) (s' := { s with heap := h' }) (by unfold FH.openW; rw [if_neg hw])] at e
      cases e

end

/-! ## Histories -/

/-- Specification: the bytes of the results a client keeps, per result an array of `n + 1` bytes and a structure of 16. -/
def keptBytes (kept : List Kept) : Nat := (kept.map fun k => k.1 + 17).sum

/-- Specification: no text and no file of the history has more than `N` bytes. -/
def COp.AtMost (N : Nat) : COp → Prop
  | .call _ T _ _ => T.size ≤ N
  | .file _ _ _ _ content => content.length ≤ N
  | .release _ => True

theorem keptBytes_append (l : List Kept) (k : Kept) : keptBytes (l ++ [k]) = keptBytes l + (k.1 + 17) := by
  simp [keptBytes]

theorem keptBytes_erase (l : List Kept) (i : Nat) (k : Kept) (h : l[i]? = some k) :
    keptBytes l = keptBytes (l.eraseIdx i) + (k.1 + 17) := by
  have hlt : i < l.length := (List.getElem?_eq_some_iff.1 h).1
  have h1 : l.Perm (k :: l.eraseIdx i) := by
    have := (List.getElem?_eq_some_iff.1 h).2
    rw [← this]
    exact (List.getElem_cons_eraseIdx_perm hlt).symm
  unfold keptBytes
  rw [(h1.map (fun k : Kept => k.1 + 17)).sum_nat, List.map_cons, List.sum_cons]
  omega

/-- the bytes in use are at most those of the results, those of the failures (counted from `f` on) and `B`. Used in proofs only. -/
def LossInv (B f N : Nat) (c : Client) (s : FHState) : Prop :=
  f ≤ s.heap.failed ∧ s.heap.total ≤ B + keptBytes c.kept + (s.heap.failed - f) * (59 * N + 70600001)

theorem LossInv.failure {B f N : Nat} {c : Client} {s s' : FHState} (I : LossInv B f N c s) (hf : s.heap.failed < s'.heap.failed)
    (ht : s'.heap.total ≤ s.heap.total + 59 * N + 70600001) : LossInv B f N c s' := by
  obtain ⟨i1, i2⟩ := I
  have : (s.heap.failed - f + 1) * (59 * N + 70600001) ≤ (s'.heap.failed - f) * (59 * N + 70600001) :=
    Nat.mul_le_mul_right _ (by omega)
  rw [Nat.succ_mul] at this
  exact ⟨by omega, by omega⟩

theorem dropText_total {freeT : Bool} {m : Nat} {s s' : FHState} {u : Unit} (e : liftH (dropText freeT m) s = (.ok u, s')) :
    s'.heap.total = s.heap.total - (if freeT then 0 else m) ∧ s'.heap.failed = s.heap.failed := by
  unfold liftH dropText at e
  cases freeT with
  | true =>
    cases e
    simp
  | false =>
    simp only [Bool.false_eq_true, if_false] at e ⊢
    unfold freeB at e
    rw [if_pos (by rfl)] at e
    split at e <;> cases e
    exact ⟨rfl, rfl⟩

theorem FH.bind_ok {α β : Type} {m : FH α} {f : α → FH β} {s s' : FHState} {b : β} (e : (m >>= f) s = (.ok b, s')) :
    ∃ a s1, m s = (.ok a, s1) ∧ f a s1 = (.ok b, s') := by
  change FH.bind m f s = _ at e
  unfold FH.bind at e
  rcases hr : m s with ⟨r, s1⟩
  rw [hr] at e
  cases r with
  | ok a => exact ⟨a, s1, rfl, e⟩
  | error x => cases e

theorem COp.exec_lost {B f N : Nat} {c c' : Client} {s s' : FHState} (I : LossInv B f N c s) (o : COp) (g : o.Good) (hw : o.Writable)
    (hN : o.AtMost N) (e : COp.exec c o s = (.ok c', s')) : LossInv B f N c' s' := by
  cases o with
  | call w T x freeT =>
    simp only [COp.Good] at g
    simp only [COp.AtMost] at hN
    have hsz := g.mem.1.1
    dsimp only [COp.exec] at e
    by_cases hav : s.heap.av s.heap.reqs ⟨.text, T.size⟩ = true
    swap
    · rw [runH_ok (a := false) (s' := { s with heap := s.heap.refused })
        (by unfold liftH mallocB; dsimp only; rw [if_pos (by rfl), if_neg hav])] at e
      cases e
      exact I.failure (Nat.lt_succ_self _) (by show s.heap.total ≤ _; omega)
    rw [runH_ok (a := true) (s' := { s with heap := s.heap.got ⟨.text, T.size⟩ })
        (by unfold liftH mallocB; dsimp only; rw [if_pos (by rfl), if_pos hav])] at e
    simp only [if_true] at e
    have hto : TextOwned freeT T (s.heap.got ⟨.text, T.size⟩) := by
      intro _
      simp [Heap.got, Heap.add]
    have hgt : (s.heap.got ⟨.text, T.size⟩).total = s.heap.total + T.size := rfl
    have hgf : (s.heap.got ⟨.text, T.size⟩).failed = s.heap.failed := rfl
    obtain ⟨r, s1, e1, e2⟩ := FH.bind_ok e
    obtain ⟨u, s2, e3, e4⟩ := FH.bind_ok e2
    obtain ⟨d1, d2⟩ := dropText_total e3
    have hc := C89_call w g freeT _ hto
    rcases hx : bwtStringH w (some T) x.length freeT (s.heap.got ⟨.text, T.size⟩) with ⟨y, h1⟩
    rw [hx] at hc
    unfold tryF liftH at e1
    simp only [hx] at e1
    cases y with
    | ok v =>
      cases e1
      cases e4
      obtain ⟨t1, t2⟩ := C89_return w g freeT _ hto hx
      obtain ⟨i1, i2⟩ := I
      unfold LossInv
      rw [keptBytes_append, d1, d2]
      simp only at t1 t2 ⊢
      rw [t2, hgf]
      refine ⟨i1, ?_⟩
      cases freeT with
      | true => simp only [if_true] at t1 ⊢; omega
      | false => simp only [Bool.false_eq_true, if_false] at t1 ⊢; omega
    | error z =>
      have hfail : s.heap.failed < h1.failed := by
        rcases C48_every_allocation_failure w g freeT _ hto with ⟨_, _, _, q, _⟩ | ⟨_, _, q, _, f, _⟩
        · rw [hx] at q; cases q
        · rw [hx] at q; cases q; exact f
      have fin : s1 = { s with heap := h1 } → c' = c ∧ s' = s2 → LossInv B f N c' s' := by
        rintro rfl ⟨rfl, rfl⟩
        refine I.failure (by rw [d2]; exact hfail) ?_
        rw [d1]
        simp only at hc ⊢
        have : h1.total - (if freeT = true then 0 else T.size) ≤ h1.total := Nat.sub_le _ _
        omega
      cases z with
      | badAlloc => cases e1; cases e4; exact fin rfl ⟨rfl, rfl⟩
      | badFree => cases e1
      | prog z =>
        cases z with
        | throw z => cases e1; cases e4; exact fin rfl ⟨rfl, rfl⟩
        | ub z => cases e1
  | file w host inp out content =>
    obtain ⟨g1, g2, g3, g4, g5, g6, g7, g8, g9, ha⟩ := g
    simp only [COp.AtMost] at hN
    have G : FileCallH w host inp { s with files := setFile s.files inp content } content :=
      ⟨setFile_at _ _ _, g1, g2, g3, g4, g5, g6, g7, g8, g9⟩
    dsimp only [COp.exec] at e
    rw [runH_ok (m := storeF inp content) (s := s) (a := ()) (s' := { s with files := setFile s.files inp content }) rfl] at e
    obtain ⟨r, s1, e1, e2⟩ := FH.bind_ok e
    obtain ⟨u, s2, e3, e4⟩ := FH.bind_ok e2
    cases e3
    have hc := C89_file (out := out) G
    rcases hx : bwtFileH w host inp out { s with files := setFile s.files inp content } with ⟨y, s3⟩
    rw [hx] at hc
    unfold tryF at e1
    simp only [hx] at e1
    rcases bwtFileH_ends (out := out) G ha with ⟨bytes, s4, q, _, _, _, h4, _⟩ | ⟨z, s4, q, _, h1, _, h3, _⟩
    · rw [hx] at q
      cases q
      cases e1
      cases e4
      have t := C89_file_return G hx
      unfold LossInv at *
      rw [t]
      simp only at h4 ⊢
      rw [h4]
      exact I
    · rw [hx] at q
      cases q
      have hfail : s.heap.failed < s3.heap.failed := h3 hw
      have fin : s1 = s3 → c' = c ∧ s' = s1 → LossInv B f N c' s' := by
        rintro rfl ⟨rfl, rfl⟩
        refine I.failure hfail ?_
        simp only at hc
        omega
      cases z with
      | badAlloc => cases e1; cases e4; exact fin rfl ⟨rfl, rfl⟩
      | badFree => cases e1
      | prog z =>
        cases z with
        | throw z => cases e1; cases e4; exact fin rfl ⟨rfl, rfl⟩
        | ub z => cases e1
  | release i =>
    dsimp only [COp.exec] at e
    cases hk : c.kept[i]? with
    | none => rw [hk] at e; cases e; exact I
    | some k =>
      rw [hk] at e
      obtain ⟨u, s1, e1, e2⟩ := FH.bind_ok e
      cases e2
      unfold liftH releaseResultH at e1
      rw [H.bind_def] at e1
      have key : s'.heap.total = s.heap.total - (k.1 + 1) - 16 ∧ s'.heap.failed = s.heap.failed := by
        unfold freeB at e1
        rw [if_pos (by rfl)] at e1
        by_cases c1 : 1 ≤ s.heap.live (bwtBlk k.1)
        · rw [if_pos c1] at e1
          simp only at e1
          rw [if_pos (by rfl)] at e1
          split at e1
          · cases e1; exact ⟨rfl, rfl⟩
          · cases e1
        · rw [if_neg c1] at e1; cases e1
      obtain ⟨i1, i2⟩ := I
      have := keptBytes_erase _ _ _ hk
      unfold LossInv
      rw [key.1, key.2]
      refine ⟨i1, ?_⟩
      simp only
      omega

theorem COp.execs_lost {B f N : Nat} : ∀ (ops : List COp) {c c' : Client} {s s' : FHState}, LossInv B f N c s → (∀ o ∈ ops, o.Good) →
    (∀ o ∈ ops, o.Writable) → (∀ o ∈ ops, o.AtMost N) → COp.execs c ops s = (.ok c', s') → LossInv B f N c' s'
  | [], _, _, _, _, I, _, _, _, e => by cases e; exact I
  | o :: os, _, _, _, _, I, g, w, a, e => by
    rw [COp.execs] at e
    obtain ⟨c1, s1, e1, e2⟩ := FH.bind_ok e
    exact COp.execs_lost os (COp.exec_lost I o (g o List.mem_cons_self) (w o List.mem_cons_self) (a o List.mem_cons_self) e1)
      (fun o h => g o (List.mem_cons_of_mem _ h)) (fun o h => w o (List.mem_cons_of_mem _ h)) (fun o h => a o (List.mem_cons_of_mem _ h)) e2

/-- **C89** a history of calls and releases (as in C84) with texts and files of at most `N` bytes, by a client that catches
exceptions: the bytes in use at the end are at most those in use at the beginning, those of the results held and
`59·N + 70600001` per request refused. In particular, if no request is refused nothing is lost, however long the history. -/
theorem C89_history (s : FHState) (N : Nat) (ops : List COp) (hg : ∀ o ∈ ops, o.Good) (hw : ∀ o ∈ ops, o.Writable)
    (hN : ∀ o ∈ ops, o.AtMost N) {c : Client} {s' : FHState} (e : COp.execs ⟨[], []⟩ ops s = (.ok c, s')) :
    s'.heap.total ≤ s.heap.total + keptBytes c.kept + (s'.heap.failed - s.heap.failed) * (59 * N + 70600001) := by
  exact (COp.execs_lost (B := s.heap.total) (f := s.heap.failed) (N := N) ops
    ⟨Nat.le_refl _, by simp [keptBytes]⟩ hg hw hN e).2

/-- one attempt: the suffix array is refused -/
theorem call_refused (c : Client) (s : FHState) (hav : s.heap.av = fun _ b => decide (b.role ≠ .sa)) (w : World) (T : Mem Nat)
    (x : List Nat) (g : GoodCall w.junk w.sorter T x) (freeT : Bool) :
    ∃ s', COp.exec c (.call w T x freeT) s = (.ok c, s') ∧ s'.heap.av = s.heap.av ∧
      s'.heap.live ⟨.container, 12472⟩ = s.heap.live ⟨.container, 12472⟩ + 1 := by
  have hto : TextOwned freeT T (s.heap.got ⟨.text, T.size⟩) := by
    intro _
    simp [Heap.got, Heap.add]
  have hg : (s.heap.got ⟨.text, T.size⟩).av = fun _ b => decide (b.role ≠ .sa) := hav
  have o := bwtStringH_outcome w g freeT (s.heap.got ⟨.text, T.size⟩) hto
  have hkeep := C83_memory_of_the_caller_stays w g freeT (s.heap.got ⟨.text, T.size⟩) hto ⟨.text, T.size⟩
  have ha := ((bwtStringH_framed w (some T) x.length freeT).asks (s.heap.got ⟨.text, T.size⟩)).av
  have hsa : ∀ k (b : Blk), b.role = .sa → (s.heap.got ⟨.text, T.size⟩).av k b = false := by
    intro k b hb; rw [hg]; simp [hb]
  dsimp only [COp.exec]
  rw [runH_ok (a := true) (s' := { s with heap := s.heap.got ⟨.text, T.size⟩ })
      (by unfold liftH mallocB; dsimp only; rw [if_pos (by rfl), if_pos (by rw [hav]; rfl)])]
  simp only [if_true]
  rcases hx : bwtStringH w (some T) x.length freeT (s.heap.got ⟨.text, T.size⟩) with ⟨y, h1⟩
  rw [hx] at o hkeep ha
  cases o with
  | first c => rw [hg] at c; simp at c
  | front e h' he hf why =>
    obtain ⟨k, b, hr, c⟩ := why
    rw [hg] at c
    simp only [ne_eq, decide_not, Bool.not_eq_false', decide_eq_true_eq] at c
    rw [c] at hr
    simp [RF, RT] at hr
  | done r h' hr hf has sa => exact absurd hsa sa
  | back e h' he hf why c0 text cont sa =>
    rw [sa hsa] at hx
    rw [runH_ok (m := tryF _) (a := none) (s' := { s with heap := h1 }) (by unfold tryF liftH; simp only [hx]),
      runH_ok (dropText_run (s := { s with heap := h1 }) ?_)]
    · refine ⟨_, rfl, ?_, ?_⟩
      · show (if freeT then h1 else h1.sub ⟨.text, T.size⟩ : Heap).av = _
        cases freeT <;> exact ha
      · have e1 : (if freeT then h1 else h1.sub ⟨.text, T.size⟩ : Heap).live ⟨.container, 12472⟩ = h1.live ⟨.container, 12472⟩ := by
          cases freeT with
          | true => rfl
          | false => simp [Heap.sub]
        show (if freeT then h1 else h1.sub ⟨.text, T.size⟩ : Heap).live ⟨.container, 12472⟩ = _
        rw [e1, cont 12472]
        simp [Heap.got, Heap.add]
    · rintro rfl
      simp only [Bool.false_eq_true, false_and, if_false, Heap.got, Heap.add, if_true] at hkeep
      simp only
      omega

/-- **C89** (violated) the losses add up without bound, although the client does all it can: whatever the text and whatever the
number `k` of attempts, if of all requests those of the suffix array are refused, every call throws `std::bad_alloc` and at the
end the process holds `k` containers of 12472 bytes more than before. -/
theorem C89_losses_add_up (w : World) (T : Mem Nat) (x : List Nat) (g : GoodCall w.junk w.sorter T x) (freeT : Bool) (k : Nat)
    (s : FHState) (hav : s.heap.av = fun _ b => decide (b.role ≠ .sa)) :
    ∃ s', COp.execs ⟨[], []⟩ (List.replicate k (.call w T x freeT)) s = (.ok ⟨[], []⟩, s') ∧
      s'.heap.live ⟨.container, 12472⟩ = s.heap.live ⟨.container, 12472⟩ + k := by
  induction k generalizing s with
  | zero => exact ⟨s, rfl, rfl⟩
  | succ k ih =>
    obtain ⟨s1, e1, a1, l1⟩ := call_refused ⟨[], []⟩ s hav w T x g freeT
    obtain ⟨s2, e2, l2⟩ := ih s1 (a1.trans hav)
    refine ⟨s2, ?_, by omega⟩
    rw [List.replicate_succ, COp.execs, runH_ok e1]
    exact e2

/-! ## Instances -/

example (sj : BitVec 64) (av : Nat → Blk → Bool) :
    (bwtStringH (bananaWorld sj) (some (cString banana)) 6 true { bananaHeap with av := av }).2.total ≤ 107 + 58 * 6 + 70600000 :=
  C89_call (bananaWorld sj) (T := cString banana) (s := banana) banana_good true { bananaHeap with av := av } bananaHeap_owned

example (av : Nat → Blk → Bool) :
    (bwtFileH niceWorld niceHost "in" "out" { niceState with heap := { niceState.heap with av := av } }).2.heap.total ≤
      niceState.heap.total + 59 * 6 + 70600001 :=
  C89_file (content := banana) (niceH_call { niceState with heap := { niceState.heap with av := av } } rfl)

/-- the history of C84 without its last call, under every schedule -/
example (sj : BitVec 64) (av : Nat → Blk → Bool) {c : Client} {s' : FHState}
    (e : COp.execs ⟨[], []⟩ ((someHistory sj).take 4) { niceState with heap := { niceState.heap with av := av } } = (.ok c, s')) :
    s'.heap.total ≤ niceState.heap.total + keptBytes c.kept + (s'.heap.failed - niceState.heap.failed) * (59 * 7 + 70600001) :=
  C89_history { niceState with heap := { niceState.heap with av := av } } 7 ((someHistory sj).take 4)
    (fun o ho => someHistory_good sj o (List.mem_of_mem_take ho))
    (by
      intro o ho
      simp only [someHistory, List.take, List.mem_cons, List.not_mem_nil, or_false] at ho
      rcases ho with rfl | rfl | rfl | rfl
      · trivial
      · trivial
      · exact rfl
      · trivial)
    (by
      intro o ho
      simp only [someHistory, List.take, List.mem_cons, List.not_mem_nil, or_false] at ho
      rcases ho with rfl | rfl | rfl | rfl
      · show (7 : Nat) ≤ 7; omega
      · show (7 : Nat) ≤ 7; omega
      · show (6 : Nat) ≤ 7; omega
      · trivial) e

/-- a thousand attempts -/
example (sj : BitVec 64) : ∃ s', COp.execs ⟨[], []⟩ (List.replicate 1000 (.call (bananaWorld sj) (cString banana) banana true))
      { niceState with heap := { bananaHeap with av := fun _ b => decide (b.role ≠ .sa) } } = (.ok ⟨[], []⟩, s') ∧
      s'.heap.live ⟨.container, 12472⟩ = bananaHeap.live ⟨.container, 12472⟩ + 1000 :=
  C89_losses_add_up (bananaWorld sj) (cString banana) banana banana_good true 1000 _ rfl

end Flbwt
