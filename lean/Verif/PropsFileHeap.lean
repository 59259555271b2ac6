import Verif.FileHeap
import Verif.PropsFile
import Verif.PropsHeap

/-!
# Properties C57 and C58: `bwt_file` when memory runs out, and when the machine crashes
-/

namespace Flbwt

open FH
open HashTable (ok_bind)

section
variable {α β : Type} {s s' : FHState}

theorem runH_ok {m : FH α} {f : α → FH β} {a : α} (h : m s = (.ok a, s')) : (m >>= f) s = f a s' := by
  show FH.bind m f s = _
  unfold FH.bind
  rw [h]
theorem runH_err {m : FH α} {f : α → FH β} {e : HErr} (h : m s = (.error e, s')) : (m >>= f) s = (.error e, s') := by
  show FH.bind m f s = _
  unfold FH.bind
  rw [h]
end

theorem setFile_setFile (base : String → Option (List Nat)) (out : String) (a b : List Nat) :
    setFile (setFile base out a) out b = setFile base out b := by
  funext f
  unfold setFile
  split <;> rfl

theorem setFile_at (base : String → Option (List Nat)) (out : String) (a : List Nat) : setFile base out a out = some a := by
  unfold setFile
  rw [if_pos rfl]

theorem setFile_ne (base : String → Option (List Nat)) {out f : String} (a : List Nat) (h : f ≠ out) : setFile base out a f = base f := by
  unfold setFile
  rw [if_neg h]

/-! ## Writing -/

/-- From `s` to `s'` the output file has grown from `old` to `new`, byte by byte, and nothing else has happened: the new
states of the file system are exactly those in which `out` holds a prefix of `new` that is at least as long as `old`. -/
structure Grown (base : String → Option (List Nat)) (out : String) (old new : List Nat) (s s' : FHState) : Prop where
  pre : old <+: new
  from_ : s.files = setFile base out old
  files : s'.files = setFile base out new
  streams : s'.streams = s.streams
  heap : s'.heap = s.heap
  hist : ∃ l, s'.hist = l ++ s.hist ∧
    ∀ x, x ∈ l ↔ ∃ j, old.length ≤ j ∧ j ≤ new.length ∧ x = setFile base out (new.take j)

theorem Grown.trans {base : String → Option (List Nat)} {out : String} {a b c : List Nat} {s1 s2 s3 : FHState}
    (h : Grown base out a b s1 s2) (k : Grown base out b c s2 s3) : Grown base out a c s1 s3 := by
  obtain ⟨l1, e1, m1⟩ := h.hist
  obtain ⟨l2, e2, m2⟩ := k.hist
  refine ⟨h.pre.trans k.pre, h.from_, k.files, k.streams.trans h.streams, k.heap.trans h.heap, l2 ++ l1, ?_, ?_⟩
  · rw [e2, e1, List.append_assoc]
  · intro x
    rw [List.mem_append, m1, m2]
    have hab := h.pre.length_le
    have hbc := k.pre.length_le
    have tk : ∀ j, j ≤ b.length → b.take j = c.take j := by
      intro j hj
      obtain ⟨t, rfl⟩ := k.pre
      rw [List.take_append_of_le_length hj]
    constructor
    · rintro (⟨j, h1, h2, rfl⟩ | ⟨j, h1, h2, rfl⟩)
      · exact ⟨j, by omega, h2, rfl⟩
      · exact ⟨j, h1, by omega, by rw [tk j h2]⟩
    · rintro ⟨j, h1, h2, rfl⟩
      by_cases hj : b.length ≤ j
      · exact Or.inl ⟨j, hj, h2, rfl⟩
      · exact Or.inr ⟨j, h1, by omega, by rw [tk j (by omega)]⟩

/-- one `fwrite` -/
theorem writeH_run (h : Host) (base : String → Option (List Nat)) (name : String) (x old : List Nat) (s : FHState)
    (hs : s.files = setFile base name old) :
    ∃ s', FH.write h name x s = (.ok (), s') ∧
      Grown base name old (old ++ x.take (h.accept old.length x.length)) s s' := by
  have eo : (s.files name).getD [] = old := by rw [hs, setFile_at]; rfl
  have et : x.take (min (h.accept old.length x.length) x.length) = x.take (h.accept old.length x.length) := by
    by_cases hc : h.accept old.length x.length ≤ x.length
    · rw [Nat.min_eq_left hc]
    · rw [Nat.min_eq_right (by omega), List.take_of_length_le (Nat.le_refl _), List.take_of_length_le (by omega)]
  generalize hk : min (h.accept old.length x.length) x.length = k at et
  have hkx : k ≤ x.length := by omega
  refine ⟨_, rfl, ?_⟩
  simp only [eo, hk]
  refine ⟨List.prefix_append _ _, hs, ?_, rfl, rfl, _, rfl, ?_⟩
  · rw [hs, setFile_setFile, et]
  · intro y
    simp only [List.mem_map, List.mem_range, hs, setFile_setFile]
    rw [← et]
    have hlen : (old ++ x.take k).length = old.length + k := by simp; omega
    have tk : ∀ i, i ≤ k → (old ++ x.take k).take (old.length + i) = old ++ x.take i := by
      intro i hi
      rw [List.take_length_add_append, List.take_take, Nat.min_eq_left hi]
    constructor
    · rintro ⟨j, hj, rfl⟩
      refine ⟨old.length + (k - j), by omega, by omega, ?_⟩
      rw [tk _ (by omega)]
    · rintro ⟨j, h1, h2, rfl⟩
      refine ⟨k - (j - old.length), by omega, ?_⟩
      have := tk (j - old.length) (by omega)
      rw [show old.length + (j - old.length) = j by omega] at this
      rw [this, show k - (k - (j - old.length)) = j - old.length by omega]

theorem liftOk {α : Type} {m : M α} {a : α} {s : FHState} (h : m = .ok a) : FH.lift m s = (.ok a, s) := by rw [h]; rfl

theorem writeRowsH_run (h : Host) (base : String → Option (List Nat)) (name : String) {n : Nat} {r : BwtResult} (hn : n < 2 ^ 64)
    (hs : r.bwt.size = n + 1) (hl : r.last ≤ n) (s : FHState) (old : List Nat) (hf : s.files = setFile base name old) :
    ∃ (l : List (List Nat)) (s' : FHState), l.flatten = rowsWithout n r.bwt.data r.last ∧
      writeRowsH h name n r s = (.ok (), s') ∧ Grown base name old (appended h old l) s s' := by
  unfold writeRowsH
  by_cases h0 : r.last = 0
  · rw [if_pos h0, runH_ok (liftOk (slice_ok (by omega)))]
    obtain ⟨s', e, g⟩ := writeH_run h base name ((List.range n).map fun i => r.bwt.data (1 + i)) old s hf
    refine ⟨[(List.range n).map (fun i => r.bwt.data (1 + i))], s', ?_, e, ?_⟩
    · rw [rowsWithout_split _ hl, h0]; simp
    · rw [appended, appended]; exact g
  · rw [if_neg h0]
    by_cases h1 : r.last = n
    · rw [if_pos h1, runH_ok (liftOk (slice_ok (by omega)))]
      obtain ⟨s', e, g⟩ := writeH_run h base name ((List.range n).map fun i => r.bwt.data (0 + i)) old s hf
      refine ⟨[(List.range n).map (fun i => r.bwt.data (0 + i))], s', ?_, e, ?_⟩
      · rw [rowsWithout_split _ hl, h1]; simp
      · rw [appended, appended]; exact g
    · rw [if_neg h1, runH_ok (liftOk (slice_ok (by omega)))]
      obtain ⟨s1, e1, g1⟩ := writeH_run h base name ((List.range r.last).map fun i => r.bwt.data (0 + i)) old s hf
      rw [runH_ok e1, show (2 ^ 64 + n - r.last) % 2 ^ 64 = n - r.last by omega, runH_ok (liftOk (slice_ok (by omega)))]
      obtain ⟨s2, e2, g2⟩ := writeH_run h base name ((List.range (n - r.last)).map fun i => r.bwt.data (r.last + 1 + i)) _ s1 g1.files
      refine ⟨[(List.range r.last).map (fun i => r.bwt.data (0 + i)),
        (List.range (n - r.last)).map (fun i => r.bwt.data (r.last + 1 + i))], s2, ?_, e2, ?_⟩
      · rw [rowsWithout_split _ hl]; simp
      · rw [appended, appended, appended]; exact g1.trans g2

/-- How writing the result ends: the array for the rank is refused and the output file is empty, or everything the host
accepts is written, the stream is closed and the two blocks of the result are released. -/
theorem writeResultH_run (h : Host) (name : String) {n : Nat} {r : BwtResult} (hn : n < 2 ^ 64) (hs : r.bwt.size = n + 1)
    (hl : r.last ≤ n) (s : FHState) (hb1 : 1 ≤ s.heap.live (bwtBlk n)) (hb2 : 1 ≤ s.heap.live resultBlk)
    (hw : h.mayWrite name = true) :
    (s.heap.av s.heap.reqs rankBlk = false ∧
      writeResultH h name n (some r) s = (.error .badAlloc,
        ⟨setFile s.files name [], s.streams + 1, s.heap.refused, setFile s.files name [] :: s.hist⟩)) ∨
    (∃ (l : List (List Nat)) (s' : FHState), l.flatten = bigEndian8 r.last ++ rowsWithout n r.bwt.data r.last ∧
      writeResultH h name n (some r) s = (.ok (), s') ∧ s'.files = setFile s.files name (appended h [] l) ∧
      s'.streams = s.streams ∧ s'.heap.failed = s.heap.failed ∧ (s'.heap.peak = max s.heap.peak (s.heap.total + 8) ∧
        s'.heap.total = s.heap.total - (n + 17)) ∧
      (∀ b, s'.heap.live b + (if b = bwtBlk n then 1 else 0) + (if b = resultBlk then 1 else 0) = s.heap.live b) ∧
      ∃ new, s'.hist = new ++ s.hist ∧
        ∀ x, x ∈ new ↔ ∃ j, j ≤ (appended h [] l).length ∧ x = setFile s.files name ((appended h [] l).take j)) := by
  unfold writeResultH
  rw [runH_ok (a := true) (s' := ⟨setFile s.files name [], s.streams + 1, s.heap, setFile s.files name [] :: s.hist⟩)
    (by unfold FH.openW; rw [if_pos hw])]
  simp only [if_true]
  cases hav : s.heap.av s.heap.reqs rankBlk with
  | false =>
    left
    refine ⟨rfl, ?_⟩
    rw [runH_err (m := liftH (newB .arr rankBlk)) (e := .badAlloc)
      (s' := ⟨setFile s.files name [], s.streams + 1, s.heap.refused, setFile s.files name [] :: s.hist⟩)]
    unfold liftH newB
    simp only [hav]
    rfl
  | true =>
    right
    rw [runH_ok (m := liftH (newB .arr rankBlk)) (a := ())
      (s' := ⟨setFile s.files name [], s.streams + 1, s.heap.got rankBlk, setFile s.files name [] :: s.hist⟩)
      (by unfold liftH newB; simp only [hav]; rfl)]
    obtain ⟨s1, e1, g1⟩ := writeH_run h s.files name (rankBytes r.last) []
      ⟨setFile s.files name [], s.streams + 1, s.heap.got rankBlk, setFile s.files name [] :: s.hist⟩ rfl
    rw [runH_ok e1]
    have l1 : 1 ≤ s1.heap.live rankBlk := by rw [g1.heap]; simp [Heap.got, Heap.add]
    rw [runH_ok (m := liftH (freeB .arr rankBlk)) (a := ()) (s' := { s1 with heap := s1.heap.sub rankBlk })
      (by unfold liftH freeB; rw [if_pos (by rfl), if_pos l1])]
    obtain ⟨l, s2, hfl, e2, g2⟩ := writeRowsH_run h s.files name hn hs hl { s1 with heap := s1.heap.sub rankBlk } _ g1.files
    rw [runH_ok e2]
    have st2 : s2.streams = s.streams + 1 := by rw [g2.streams]; exact g1.streams
    rw [runH_ok (m := FH.close) (a := ()) (s' := { s2 with streams := s2.streams - 1 }) (by unfold FH.close; rw [if_pos (by omega)])]
    have hh : s2.heap = (s.heap.got rankBlk).sub rankBlk := by rw [g2.heap]; show s1.heap.sub _ = _; rw [g1.heap]
    have lv : ∀ b, s2.heap.live b = s.heap.live b := by
      intro b
      rw [hh]
      simp only [Heap.got, Heap.add, Heap.sub]
      by_cases hb : b = rankBlk
      · simp [hb]
      · simp [hb]
    have lv1 : 1 ≤ s2.heap.live (bwtBlk n) := by rw [lv]; exact hb1
    have lv2 : 1 ≤ (s2.heap.sub (bwtBlk n)).live resultBlk := by
      simp only [Heap.sub]; rw [if_neg (by simp), lv]; exact hb2
    have ee : liftH (releaseResultH n) { s2 with streams := s2.streams - 1 } =
        (.ok (), { s2 with streams := s2.streams - 1, heap := (s2.heap.sub (bwtBlk n)).sub resultBlk }) := by
      unfold liftH releaseResultH
      rw [H.bind_def]
      unfold freeB
      simp only
      rw [if_pos (by rfl), if_pos lv1]
      simp only
      rw [if_pos (by rfl), if_pos lv2]
    rw [ee]
    refine ⟨rankBytes r.last :: l, _, by rw [List.flatten_cons, hfl, rankBytes_eq (by omega)], rfl, ?_, ?_, ?_, ?_, ?_, ?_⟩
    · exact g2.files
    · show s2.streams - 1 = s.streams
      omega
    · show s2.heap.failed = _
      rw [hh]
      rfl
    · constructor
      · show s2.heap.peak = _
        rw [hh]
        rfl
      · show s2.heap.total - (n + 1) - 16 = _
        rw [hh]
        show s.heap.total + 8 - 8 - (n + 1) - 16 = _
        omega
    · intro b
      simp only [Heap.sub, lv]
      have e1 : (bwtBlk n = resultBlk) = False := by simp
      by_cases c1 : b = bwtBlk n
      · subst c1; simp; omega
      · by_cases c2 : b = resultBlk
        · subst c2; simp; omega
        · simp [c1, c2]
    · have g1' : Grown s.files name [] ([] ++ (rankBytes r.last).take (h.accept ([] : List Nat).length (rankBytes r.last).length))
          ⟨setFile s.files name [], s.streams + 1, s1.heap.sub rankBlk, setFile s.files name [] :: s.hist⟩
          { s1 with heap := s1.heap.sub rankBlk } := ⟨g1.pre, rfl, g1.files, g1.streams, rfl, g1.hist⟩
      obtain ⟨l', e', m'⟩ := (g1'.trans g2).hist
      refine ⟨l' ++ [setFile s.files name []], ?_, ?_⟩
      · show s2.hist = _
        rw [e', List.append_assoc]
        rfl
      · intro x
        rw [List.mem_append, m', List.mem_singleton]
        constructor
        · rintro (⟨j, _, h2, rfl⟩ | rfl)
          · exact ⟨j, h2, rfl⟩
          · exact ⟨0, Nat.zero_le _, rfl⟩
        · rintro ⟨j, h2, rfl⟩
          exact Or.inl ⟨j, Nat.zero_le _, h2, rfl⟩

/-! ## The whole -/

/-- A call on a readable file with the given contents of at least 3 (and less than `2^57`) bytes, on a host where `ftell` and
`fread` work. Nothing is assumed about the heap: any request may be refused. -/
structure FileCallH (w : World) (h : Host) (inp : String) (s : FHState) (content : List Nat) : Prop where
  file : s.files inp = some content
  read : h.mayRead inp = true
  tell : h.tell content = content.length
  full : content.length ≤ h.readMax
  len3 : 3 ≤ content.length
  len57 : content.length < 2 ^ 57
  byte : ∀ x ∈ content, x < 256
  sort : SortsOK w.sorter
  safe : LengthsSafe w.junk content
  room : enoughFor content.length ≤ w.junk.lim

section
variable {w : World} {h : Host} {inp out : String} {s : FHState} {content : List Nat}

/-- Up to the transform: the text is refused, or another request is refused, or the transform is in memory (proof helper). -/
theorem bwtFileH_upto (g : FileCallH w h inp s content) (out : String) :
    (s.heap.av s.heap.reqs ⟨.text, content.length + 1⟩ = false ∧
      bwtFileH w h inp out s = (.error (.prog (.throw .runtimeError)), { s with heap := s.heap.refused })) ∨
    (∃ e h', bwtFileH w h inp out s = (.error e, { s with heap := h' }) ∧ (e = .badAlloc ∨ e = .prog (.ub .nullDeref)) ∧
      s.heap.failed < h'.failed ∧ ∃ k b, b.role ≠ .rank ∧ b.role ≠ .text ∧ s.heap.av k b = false) ∨
    (∃ r h', bwtFileH w h inp out s = writeResultH h out content.length (some r) { s with heap := h' } ∧
      r.bwt.size = content.length + 1 ∧ IsBWT content r.bwt.data r.last ∧ h'.failed = s.heap.failed ∧ h'.av = s.heap.av ∧
      h'.total = s.heap.total + content.length + 17 ∧
      h'.peak ≤ max s.heap.peak (s.heap.total + 59 * content.length + 70600001) ∧
      ∀ b, h'.live b = s.heap.live b + (if b = bwtBlk content.length then 1 else 0) + (if b = resultBlk then 1 else 0)) := by
  have h3 := g.len3
  have h57 := g.len57
  have en : (h.tell content % 2 ^ 64).toNat = content.length := by rw [g.tell]; omega
  have hft := fileText_full (c := content) g.full
  obtain ⟨T, e1, hT, hd⟩ := fread_run (h := h) (c := content) (n := content.length)
  rw [hft] at hd
  have em : (content.length + 1) % 2 ^ 64 = content.length + 1 := Nat.mod_eq_of_lt (by omega)
  unfold bwtFileH
  rw [runH_ok (a := some content) (s' := { s with streams := s.streams + 1 }) (by unfold FH.openR; rw [g.file]; simp [g.read])]
  dsimp only
  rw [en, em]
  cases hav : s.heap.av s.heap.reqs ⟨.text, content.length + 1⟩ with
  | false =>
    left
    refine ⟨rfl, ?_⟩
    rw [runH_ok (m := liftH (mallocB _)) (a := false) (s' := { s with streams := s.streams + 1, heap := s.heap.refused })
      (by unfold liftH mallocB; dsimp only; rw [if_pos (by rfl), hav]; rfl)]
    rfl
  | true =>
    right
    rw [runH_ok (m := liftH (mallocB _)) (a := true)
      (s' := { s with streams := s.streams + 1, heap := s.heap.got ⟨.text, content.length + 1⟩ })
      (by unfold liftH mallocB; dsimp only; rw [if_pos (by rfl), hav]; rfl)]
    rw [if_pos (by rfl), runH_ok (liftOk e1), if_neg (by rw [delivered_full g.full]; omega),
      runH_ok (m := FH.close) (a := ()) (s' := { s with heap := s.heap.got ⟨.text, content.length + 1⟩ }) (by rfl),
      runH_ok (liftOk (Mem.wr_ok _ _ (by omega)))]
    have gc : GoodCall w.junk w.sorter (T.upd content.length 0) content :=
      ⟨h3, h57, g.byte, ⟨⟨by simp [Mem.upd, hT], fun i hi => by rw [Mem.upd_data_ne _ _ (by omega)]; exact hd i hi⟩,
        fun c _ => by rw [Mem.upd_data_self]; exact Nat.zero_le _⟩, g.sort, g.safe, g.room⟩
    have hTs : (T.upd content.length 0).size = content.length + 1 := hT
    have ht : TextOwned true (T.upd content.length 0) (s.heap.got ⟨.text, content.length + 1⟩) := by
      intro _
      rw [hTs]
      simp [Heap.got, Heap.add]
    obtain ⟨r0, er0, hr0s, hr0⟩ := bwtString_good w gc true
    rw [bwtString_bwtIs w gc] at er0
    have o := bwtStringH_outcome w gc true (s.heap.got ⟨.text, content.length + 1⟩) ht
    rcases hx : bwtStringH w (some (T.upd content.length 0)) content.length true (s.heap.got ⟨.text, content.length + 1⟩) with ⟨x, h'⟩
    rw [hx] at o
    have hlift : ∀ x h', bwtStringH w (some (T.upd content.length 0)) content.length true
        (s.heap.got ⟨.text, content.length + 1⟩) = (x, h') →
        liftH (bwtStringH w (some (T.upd content.length 0)) content.length true)
          { s with heap := s.heap.got ⟨.text, content.length + 1⟩ } = (x, { s with heap := h' }) := by
      intro x h' e
      unfold liftH
      dsimp only
      rw [e]
    cases o with
    | first c =>
      exact Or.inl ⟨_, _, runH_err (hlift _ _ hx), Or.inl rfl, Nat.lt_succ_self _, _, _, by simp, by simp, c⟩
    | front e h' he hf why =>
      obtain ⟨k, b, hR, c⟩ := why
      refine Or.inl ⟨_, _, runH_err (hlift _ _ hx), he, hf, k, b, ?_, ?_, c⟩
      · intro hb; rw [hb] at hR; simp [RF, RT] at hR
      · intro hb; rw [hb] at hR; simp [RF, RT] at hR
    | back e h' he hf why =>
      obtain ⟨k, b, hR, c⟩ := why
      refine Or.inl ⟨_, _, runH_err (hlift _ _ hx), he, hf, k, b, ?_, ?_, c⟩
      · intro hb; rw [hb] at hR; simp [RB, RI, RQ] at hR
      · intro hb; rw [hb] at hR; simp [RB, RI, RQ] at hR
    | done r h' hr hf has sa av =>
      rw [hr] at er0
      cases er0
      refine Or.inr ⟨_, h', runH_ok (hlift _ _ hx), hr0s, hr0, hf, av, ?_, ?_, ?_⟩
      · rw [has.1.total]
        simp only [withoutText, if_true, Heap.sub, Heap.got, Heap.add, hTs, List.map_cons, List.map_nil, List.sum_cons, List.sum_nil]
        omega
      · have := has.2
        unfold peakBound at this
        simp only [Heap.got, Heap.add] at this
        omega
      · intro b
        have ho := onlyResult_of_has ht has b
        rw [hTs] at ho
        simp only [Heap.got, Heap.add, true_and] at ho
        by_cases hb : b = ⟨.text, content.length + 1⟩
        · subst hb; simp at ho ⊢; omega
        · rw [if_neg hb, if_neg hb] at ho; omega

/-- **C57** `bwt_file` when any request may be refused, any number of times. Either it returns normally: the output file is
complete, no other file has changed, every stream is closed, the heap is what it was and no request was refused. Or a request
before the output is opened was refused: `std::runtime_error` (exactly for the text), `std::bad_alloc` or a null dereference,
no file was touched and no stream is left open. Or the last request (the 8 bytes for the row number) was refused:
`std::bad_alloc`, the output file has been emptied, its stream stays open and the two blocks of the result are lost. -/
theorem C57_file_every_allocation_failure (g : FileCallH w h inp s content) (hw : h.mayWrite out = true) (ha : TakesAll h) :
    (∃ bytes s', bwtFileH w h inp out s = (.ok (), s') ∧ FileFormat content bytes ∧ s'.files out = some bytes ∧
      (∀ f, f ≠ out → s'.files f = s.files f) ∧ s'.streams = s.streams ∧ s'.heap.live = s.heap.live ∧
      s'.heap.failed = s.heap.failed) ∨
    (∃ e s', bwtFileH w h inp out s = (.error e, s') ∧ s'.files = s.files ∧ s'.streams = s.streams ∧
      s.heap.failed < s'.heap.failed ∧
      ((e = .prog (.throw .runtimeError) ∧ s.heap.av s.heap.reqs ⟨.text, content.length + 1⟩ = false) ∨
        ((e = .badAlloc ∨ e = .prog (.ub .nullDeref)) ∧ ∃ k b, b.role ≠ .text ∧ s.heap.av k b = false))) ∨
    (∃ s', bwtFileH w h inp out s = (.error .badAlloc, s') ∧ s'.files out = some [] ∧
      (∀ f, f ≠ out → s'.files f = s.files f) ∧ s'.streams = s.streams + 1 ∧ s.heap.failed < s'.heap.failed ∧
      (∀ b, s'.heap.live b = s.heap.live b + (if b = ⟨.bwt, content.length + 1⟩ then 1 else 0) + (if b = ⟨.result, 16⟩ then 1 else 0)) ∧
      ∃ k, s.heap.av k ⟨.rank, 8⟩ = false) := by
  have h57 := g.len57
  rcases bwtFileH_upto g out with ⟨c, e⟩ | ⟨e, h', x, he, hf, k, b, _, hb, c⟩ | ⟨r, h', x, hs, hb, hf, hav, _, _, hl⟩
  · exact Or.inr (Or.inl ⟨_, _, e, rfl, rfl, Nat.lt_succ_self _, Or.inl ⟨rfl, c⟩⟩)
  · exact Or.inr (Or.inl ⟨_, _, x, rfl, rfl, hf, Or.inr ⟨he, k, b, hb, c⟩⟩)
  · have l1 : 1 ≤ h'.live (bwtBlk content.length) := by rw [hl]; simp
    have l2 : 1 ≤ h'.live resultBlk := by rw [hl]; simp
    rw [x]
    rcases writeResultH_run h out (by omega) hs (by have := hb.last_lt; omega) { s with heap := h' } l1 l2 hw with
      ⟨c, e⟩ | ⟨l, s', hfl, e, h1, h2, h4, _, h5, _⟩
    · refine Or.inr (Or.inr ⟨_, e, setFile_at _ _ _, fun f hne => setFile_ne _ _ hne, rfl, ?_, hl, h'.reqs, ?_⟩)
      · show s.heap.failed < h'.failed + 1
        omega
      · rw [← hav]; exact c
    · refine Or.inl ⟨appended h [] l, s', e, ⟨_, _, hb, ?_⟩, ?_, ?_, h2, ?_, ?_⟩
      · rw [appended_all ha, hfl]; rfl
      · rw [h1, setFile_at]
      · intro f hne; rw [h1, setFile_ne _ _ hne]
      · funext b
        have := h5 b
        have hlb := hl b
        simp only at this
        omega
      · rw [h4]; exact hf

/-- **C57** with unlimited memory only the first case of `C57_file_every_allocation_failure` is left. -/
theorem C57_unlimited (g : FileCallH w h inp s content) (hw : h.mayWrite out = true) (ha : TakesAll h)
    (hav : ∀ k b, s.heap.av k b = true) :
    ∃ bytes s', bwtFileH w h inp out s = (.ok (), s') ∧ FileFormat content bytes ∧ s'.files out = some bytes ∧
      (∀ f, f ≠ out → s'.files f = s.files f) ∧ s'.streams = s.streams ∧ s'.heap.live = s.heap.live := by
  rcases C57_file_every_allocation_failure g hw ha with
    ⟨b, s', h1, h2, h3, h4, h5, h6, _⟩ | ⟨_, _, _, _, _, _, ⟨_, c⟩ | ⟨_, _, _, _, c⟩⟩ | ⟨_, _, _, _, _, _, _, _, c⟩
  · exact ⟨b, s', h1, h2, h3, h4, h5, h6⟩
  all_goals rw [hav] at c; cases c

/-- **C57** (violated) for every file there is a schedule that refuses 8 bytes only, after which the previous contents of the
output file are gone, although the call reports an error. -/
theorem C57_output_destroyed_reachable (g : FileCallH w h inp s content) (hw : h.mayWrite out = true) :
    ∃ av s', bwtFileH w h inp out { s with heap := { s.heap with av := av } } = (.error .badAlloc, s') ∧
      s'.files out = some [] ∧ s'.streams = s.streams + 1 := by
  have h57 := g.len57
  refine ⟨fun _ b => decide (b.role ≠ .rank), ?_⟩
  have g' : FileCallH w h inp { s with heap := { s.heap with av := fun _ b => decide (b.role ≠ .rank) } } content :=
    ⟨g.file, g.read, g.tell, g.full, g.len3, g.len57, g.byte, g.sort, g.safe, g.room⟩
  rcases bwtFileH_upto g' out with ⟨c, _⟩ | ⟨_, _, _, _, _, k, b, hb, _, c⟩ | ⟨r, h', x, hs, hb, hf, hav, _, _, hl⟩
  · simp at c
  · simp [hb] at c
  · have l1 : 1 ≤ h'.live (bwtBlk content.length) := by rw [hl]; simp
    have l2 : 1 ≤ h'.live resultBlk := by rw [hl]; simp
    rw [x]
    rcases writeResultH_run h out (by omega) hs (by have := hb.last_lt; omega) { s with heap := h' } l1 l2 hw with
      ⟨c, e⟩ | ⟨l, s', hfl, e, h1, h2, h4, _, h5, _⟩
    · exact ⟨_, e, setFile_at _ _ _, rfl⟩
    · exfalso
      -- the schedule refuses the array
      have c : h'.av h'.reqs rankBlk = false := by rw [hav]; rfl
      unfold writeResultH at e
      rw [runH_ok (a := true) (s' := ⟨setFile s.files out [], s.streams + 1, h', setFile s.files out [] :: s.hist⟩)
        (by unfold FH.openW; rw [if_pos hw])] at e
      simp only [if_true] at e
      rw [runH_err (m := liftH (newB .arr rankBlk)) (e := .badAlloc)
        (s' := ⟨setFile s.files out [], s.streams + 1, h'.refused, setFile s.files out [] :: s.hist⟩)
        (by unfold liftH newB; simp only [c]; rfl)] at e
      cases e

/-- **C57** the output file cannot be opened: `std::invalid_argument`, no file was touched, but the two blocks of the result
are lost (unless a request was refused before). -/
theorem C57_no_output (g : FileCallH w h inp s content) (hw : h.mayWrite out = false) (hav : ∀ k b, s.heap.av k b = true) :
    ∃ s', bwtFileH w h inp out s = (.error (.prog (.throw .invalidArgument)), s') ∧ s'.files = s.files ∧ s'.streams = s.streams ∧
      ∀ b, s'.heap.live b = s.heap.live b + (if b = ⟨.bwt, content.length + 1⟩ then 1 else 0) + (if b = ⟨.result, 16⟩ then 1 else 0) := by
  rcases bwtFileH_upto g out with ⟨c, _⟩ | ⟨_, _, _, _, _, _, _, _, _, c⟩ | ⟨r, h', x, _, _, _, _, _, _, hl⟩
  · rw [hav] at c; cases c
  · rw [hav] at c; cases c
  · rw [x]
    unfold writeResultH
    rw [runH_ok (a := false) (s' := { s with heap := h' }) (by unfold FH.openW; rw [hw]; rfl)]
    exact ⟨_, rfl, rfl, rfl, hl⟩

/-- **C57** memory of `bwt_file` is linear: a call that returns has used at most `59·n + 70600001` bytes beyond what was in use
before. -/
theorem C57_linear_memory (g : FileCallH w h inp s content) {s' : FHState} (e : bwtFileH w h inp out s = (.ok (), s')) :
    s'.heap.peak ≤ max s.heap.peak (s.heap.total + 59 * content.length + 70600001) := by
  have h57 := g.len57
  rcases bwtFileH_upto g out with ⟨c, x⟩ | ⟨_, _, x, _⟩ | ⟨r, h', x, hs, hb, _, _, ht, hp, hl⟩
  · rw [x] at e; cases e
  · rw [x] at e; cases e
  · have l1 : 1 ≤ h'.live (bwtBlk content.length) := by rw [hl]; simp
    have l2 : 1 ≤ h'.live resultBlk := by rw [hl]; simp
    rw [x] at e
    by_cases hw : h.mayWrite out = true
    · rcases writeResultH_run h out (by omega) hs (by have := hb.last_lt; omega) { s with heap := h' } l1 l2 hw with
        ⟨c, x⟩ | ⟨l, s2, _, x, _, _, _, ⟨h5, _⟩, _⟩
      · rw [x] at e; cases e
      · rw [x] at e
        cases e
        rw [h5]
        show max h'.peak (h'.total + 8) ≤ _
        omega
    · unfold writeResultH at e
      rw [runH_ok (a := false) (s' := { s with heap := h' }) (by unfold FH.openW; rw [if_neg hw])] at e
      cases e

/-! ## Crash points -/

/-- **C58** the machine may crash at any moment of the call, and memory may run out at any request: the file system is then as
before the call, or the output file holds a prefix of the complete file (and all other files are untouched). -/
theorem C58_crash_points (g : FileCallH w h inp s content) (ha : TakesAll h) :
    ∃ bytes, FileFormat content bytes ∧
      ∀ x ∈ (bwtFileH w h inp out s).2.hist, x ∈ s.hist ∨
        ((∀ f, f ≠ out → x f = s.files f) ∧ ∃ k, k ≤ bytes.length ∧ x out = some (bytes.take k)) := by
  have h57 := g.len57
  obtain ⟨r0, h1, h2⟩ : ∃ r0 : BwtResult, IsBWT content r0.bwt.data r0.last ∧
      ∀ r : BwtResult, IsBWT content r.bwt.data r.last → FileFormat content (bigEndian8 r.last ++ rowsWithout content.length r.bwt.data r.last) := by
    have h3 := g.len3
    obtain ⟨r, _, hr⟩ := bwtString_good w (T := cString content) ⟨h3, h57, g.byte, cString_holds _, g.sort, g.safe, g.room⟩ true
    exact ⟨r, hr.2, fun r hr => ⟨_, _, hr, rfl⟩⟩
  refine ⟨_, h2 r0 h1, fun x hx => ?_⟩
  rcases bwtFileH_upto g out with ⟨c, e⟩ | ⟨e, h', e, _⟩ | ⟨r, h', e, hs, hb, hf, hav, _, _, hl⟩
  · rw [e] at hx; exact Or.inl hx
  · rw [e] at hx; exact Or.inl hx
  · have l1 : 1 ≤ h'.live (bwtBlk content.length) := by rw [hl]; simp
    have l2 : 1 ≤ h'.live resultBlk := by rw [hl]; simp
    rw [e] at hx
    by_cases hw : h.mayWrite out = true
    · rcases writeResultH_run h out (by omega) hs (by have := hb.last_lt; omega) { s with heap := h' } l1 l2 hw with
        ⟨c, y⟩ | ⟨l, s2, hfl, y, _, _, _, _, _, new, hn, hm⟩
      · rw [y] at hx
        rcases List.mem_cons.1 hx with rfl | hx
        · exact Or.inr ⟨fun f hne => setFile_ne _ _ hne, 0, Nat.zero_le _, setFile_at _ _ _⟩
        · exact Or.inl hx
      · rw [y] at hx
        simp only at hx
        rw [hn] at hx
        rcases List.mem_append.1 hx with hx | hx
        · obtain ⟨j, hj, rfl⟩ := (hm x).1 hx
          have eq := (h2 r0 h1).unique (h2 r hb)
          rw [appended_all ha, hfl] at hj ⊢
          rw [eq]
          exact Or.inr ⟨fun f hne => setFile_ne _ _ hne, j, hj, setFile_at _ _ _⟩
        · exact Or.inl hx
    · unfold writeResultH at hx
      rw [runH_ok (a := false) (s' := { s with heap := h' }) (by unfold FH.openW; rw [if_neg hw])] at hx
      exact Or.inl hx

/-- **C58** all these states occur: a crash can leave every prefix of the complete file, the empty one included, whatever the
output file held before. In particular with `out = inp` the input is lost. -/
theorem C58_every_prefix_occurs (g : FileCallH w h inp s content) (hw : h.mayWrite out = true) (ha : TakesAll h)
    (hav : ∀ k b, s.heap.av k b = true) {bytes : List Nat} (hb : FileFormat content bytes) (k : Nat) :
    ∃ x ∈ (bwtFileH w h inp out s).2.hist, x out = some (bytes.take k) ∧ ∀ f, f ≠ out → x f = s.files f := by
  have h57 := g.len57
  rcases bwtFileH_upto g out with ⟨c, _⟩ | ⟨_, _, _, _, _, _, _, _, _, c⟩ | ⟨r, h', e, hs, hbw, hf, hav', _, _, hl⟩
  · rw [hav] at c; cases c
  · rw [hav] at c; cases c
  · have l1 : 1 ≤ h'.live (bwtBlk content.length) := by rw [hl]; simp
    have l2 : 1 ≤ h'.live resultBlk := by rw [hl]; simp
    rw [e]
    rcases writeResultH_run h out (by omega) hs (by have := hbw.last_lt; omega) { s with heap := h' } l1 l2 hw with
      ⟨c, y⟩ | ⟨l, s2, hfl, y, _, _, _, _, _, new, hn, hm⟩
    · have c : h'.av h'.reqs rankBlk = false := c
      rw [hav', hav] at c; cases c
    · rw [y]
      simp only
      rw [hn]
      have eq : bytes = appended h [] l := by
        rw [appended_all ha, hfl]
        exact hb.unique ⟨_, _, hbw, rfl⟩
      refine ⟨setFile s.files out (bytes.take k), List.mem_append_left _ ((hm _).2 ?_), setFile_at _ _ _,
        fun f hne => setFile_ne _ _ hne⟩
      refine ⟨min k bytes.length, by rw [← eq]; omega, ?_⟩
      rw [← eq]
      by_cases hk : k ≤ bytes.length
      · rw [Nat.min_eq_left hk]
      · rw [Nat.min_eq_right (by omega), List.take_of_length_le (Nat.le_refl _), List.take_of_length_le (by omega)]

theorem walk_length (n : Nat) (b : Nat → Nat) (last : Nat) : ∀ (k r : Nat) (acc : List Nat), (walk n b last k r acc).length = k + acc.length
  | 0, _, acc => by rw [walk]; omega
  | k + 1, r, acc => by rw [walk, walk_length n b last k]; simp; omega

/-- **C58** a torn file is never mistaken for the contents: no proper prefix of the complete file decodes to them. -/
theorem C58_torn_file_decodes_wrong {bytes : List Nat} (hb : FileFormat content bytes) (hc : content ≠ []) {k : Nat}
    (hk : k < bytes.length) : decodeFile (bytes.take k) ≠ content := by
  obtain ⟨b, last, hbw, rfl⟩ := hb
  have hl := hbw.last_lt
  intro he
  have hlen := congrArg List.length he
  unfold decodeFile invert at hlen
  simp only [walk_length] at hlen
  rw [List.length_append, bigEndian8_length, rowsWithout_length b (by omega)] at hk
  have : 0 < content.length := List.length_pos_of_ne_nil hc
  simp only [List.length_drop, List.length_take, List.length_append, bigEndian8_length, List.length_nil] at hlen
  rw [rowsWithout_length b (by omega)] at hlen
  omega

end

/-! ## No other file, at any moment -/

/-- `m` touches no file but `out`, at any moment. -/
def OnlyH (out : String) {α : Type} (m : FH α) : Prop := ∀ s, (∀ f, f ≠ out → (m s).2.files f = s.files f) ∧
  ∀ x ∈ (m s).2.hist, x ∈ s.hist ∨ ∀ f, f ≠ out → x f = s.files f

section
variable {w : World} {h : Host} {inp out : String}

theorem OnlyH.bind {α β : Type} {m : FH α} {f : α → FH β} (hm : OnlyH out m) (hf : ∀ a, OnlyH out (f a)) : OnlyH out (m >>= f) := by
  intro s
  show (∀ x, x ≠ out → (FH.bind m f s).2.files x = _) ∧ ∀ x ∈ (FH.bind m f s).2.hist, _
  unfold FH.bind
  have := hm s
  cases hms : m s with
  | mk r s' =>
    rw [hms] at this
    cases r with
    | error e => exact this
    | ok a =>
      have k := hf a s'
      refine ⟨fun x hx => (k.1 x hx).trans (this.1 x hx), fun x hx => ?_⟩
      rcases k.2 x hx with k2 | k2
      · exact this.2 x k2
      · exact Or.inr (fun f hf => (k2 f hf).trans (this.1 f hf))

theorem OnlyH.same {α : Type} {m : FH α} (hm : ∀ s, (m s).2.files = s.files ∧ (m s).2.hist = s.hist) : OnlyH out m := by
  intro s
  obtain ⟨h1, h2⟩ := hm s
  refine ⟨fun f _ => by rw [h1], fun x hx => ?_⟩
  rw [h2] at hx
  exact Or.inl hx

theorem OnlyH.lift {α : Type} {m : M α} : OnlyH out (FH.lift m) := OnlyH.same fun s => by cases m <;> exact ⟨rfl, rfl⟩
theorem OnlyH.fail {α : Type} {e : Err} : OnlyH out (FH.fail e : FH α) := OnlyH.same fun _ => ⟨rfl, rfl⟩
theorem OnlyH.liftH {α : Type} {m : H α} : OnlyH out (FH.liftH m) := OnlyH.same fun s => ⟨rfl, rfl⟩
theorem OnlyH.close : OnlyH out FH.close := OnlyH.same fun s => by unfold FH.close; split <;> exact ⟨rfl, rfl⟩
theorem OnlyH.openR {name : String} : OnlyH out (FH.openR h name) := OnlyH.same fun s => by
  unfold FH.openR
  split
  · split <;> exact ⟨rfl, rfl⟩
  · exact ⟨rfl, rfl⟩
theorem OnlyH.openW : OnlyH out (FH.openW h out) := by
  intro s
  unfold FH.openW
  split
  · refine ⟨fun f hf => setFile_ne _ _ hf, fun x hx => ?_⟩
    rcases List.mem_cons.1 hx with rfl | hx
    · exact Or.inr (fun f hf => setFile_ne _ _ hf)
    · exact Or.inl hx
  · exact ⟨fun _ _ => rfl, fun _ hx => Or.inl hx⟩
theorem OnlyH.write {y : List Nat} : OnlyH out (FH.write h out y) := by
  intro s
  unfold FH.write
  refine ⟨fun f hf => setFile_ne _ _ hf, fun x hx => ?_⟩
  rcases List.mem_append.1 hx with hx | hx
  · obtain ⟨j, _, rfl⟩ := List.mem_map.1 hx
    exact Or.inr (fun f hf => setFile_ne _ _ hf)
  · exact Or.inl hx
theorem OnlyH.writeRowsH {n : Nat} {r : BwtResult} : OnlyH out (writeRowsH h out n r) := by
  unfold Flbwt.writeRowsH
  split
  · exact OnlyH.lift.bind (fun _ => OnlyH.write)
  · split
    · exact OnlyH.lift.bind (fun _ => OnlyH.write)
    · exact OnlyH.lift.bind (fun _ => OnlyH.write.bind (fun _ => OnlyH.lift.bind (fun _ => OnlyH.write)))
theorem OnlyH.writeResultH {n : Nat} {b : Option BwtResult} : OnlyH out (writeResultH h out n b) := by
  unfold Flbwt.writeResultH
  refine OnlyH.openW.bind (fun o => ?_)
  split
  · split
    · exact OnlyH.liftH.bind (fun _ => OnlyH.write.bind (fun _ => OnlyH.liftH.bind (fun _ => OnlyH.writeRowsH.bind (fun _ =>
        OnlyH.close.bind (fun _ => OnlyH.liftH)))))
    · exact OnlyH.close
  · exact OnlyH.fail

/-- **C58** at no moment of any run (also one that ends by a fault or an exception, on any host, with any memory, on any
input) does a file other than the output file differ from what it was before. -/
theorem C58_other_files_never_touched (w : World) (h : Host) (inp out : String) (s : FHState) :
    (∀ f, f ≠ out → (bwtFileH w h inp out s).2.files f = s.files f) ∧
      ∀ x ∈ (bwtFileH w h inp out s).2.hist, x ∈ s.hist ∨ ∀ f, f ≠ out → x f = s.files f := by
  suffices H : OnlyH out (bwtFileH w h inp out) from H s
  unfold bwtFileH
  refine OnlyH.openR.bind (fun c => ?_)
  split
  · exact OnlyH.fail
  · dsimp only
    refine OnlyH.liftH.bind (fun p => ?_)
    split
    · refine OnlyH.lift.bind (fun T => ?_)
      split
      · exact OnlyH.fail
      · exact OnlyH.close.bind (fun _ => OnlyH.lift.bind (fun T => OnlyH.liftH.bind (fun b => OnlyH.writeResultH)))
    · exact OnlyH.close.bind (fun _ => OnlyH.fail)

end

/-! ## The hypotheses can be met -/

/-- two files, no open stream, a heap with a block of the caller -/
def niceState : FHState :=
  ⟨niceFiles.files, 0, { bananaHeap with live := fun b => if b = ⟨.buf, 100⟩ then 1 else 0 }, [niceFiles.files]⟩

theorem niceH_call (s : FHState) (hs : s.files = niceFiles.files) : FileCallH niceWorld niceHost "in" s banana :=
  ⟨by rw [hs]; rfl, rfl, rfl, by decide, by decide, by decide, by decide, insSort_ok, lengthsSafe_short _ (by decide), by decide⟩

example : ∃ bytes s', bwtFileH niceWorld niceHost "in" "out" niceState = (.ok (), s') ∧ FileFormat banana bytes ∧
    s'.files "out" = some bytes ∧ s'.heap.live = niceState.heap.live := by
  obtain ⟨b, s', h1, h2, h3, _, _, h4⟩ := C57_unlimited (out := "out") (niceH_call niceState rfl) rfl nice_takes (fun _ _ => rfl)
  exact ⟨b, s', h1, h2, h3, h4⟩
/-- 8 bytes are refused: the three bytes that were in the output file are gone -/
example : ∃ av s', bwtFileH niceWorld niceHost "in" "out" { niceState with heap := { niceState.heap with av := av } } =
    (.error .badAlloc, s') ∧ niceState.files "out" = some [1, 2, 3] ∧ s'.files "out" = some [] := by
  obtain ⟨av, s', h1, h2, _⟩ := C57_output_destroyed_reachable (out := "out") (niceH_call niceState rfl) rfl
  exact ⟨av, s', h1, rfl, h2⟩
example : ∃ s', bwtFileH niceWorld { niceHost with mayWrite := fun _ => false } "in" "out" niceState =
    (.error (.prog (.throw .invalidArgument)), s') ∧ s'.heap.live ⟨.bwt, 7⟩ = 1 := by
  obtain ⟨s', h1, _, _, h2⟩ := C57_no_output (w := niceWorld) (h := { niceHost with mayWrite := fun _ => false }) (inp := "in")
    (out := "out") (s := niceState) (content := banana)
    ⟨rfl, rfl, rfl, by decide, by decide, by decide, by decide, insSort_ok, lengthsSafe_short _ (by decide), by decide⟩ rfl (fun _ _ => rfl)
  exact ⟨s', h1, h2 ⟨.bwt, 7⟩⟩
/-- in place: after a crash the contents of the input can be gone while nothing has been written -/
example : ∃ x ∈ (bwtFileH niceWorld niceHost "in" "in" niceState).2.hist, x "in" = some [] ∧ x "out" = some [1, 2, 3] := by
  obtain ⟨b, _, _, hb, _⟩ := C57_unlimited (out := "in") (niceH_call niceState rfl) rfl nice_takes (fun _ _ => rfl)
  obtain ⟨x, hx, h1, h2⟩ := C58_every_prefix_occurs (out := "in") (niceH_call niceState rfl) rfl nice_takes (fun _ _ => rfl) hb 0
  exact ⟨x, hx, h1, h2 "out" (by decide)⟩

end Flbwt
