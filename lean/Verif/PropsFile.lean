import Verif.File
import Verif.FileSpec
import Verif.PropsTop

/-!
# Properties of `bwt_file`: C07 – C09 and C37 – C42
-/

namespace Flbwt

open FileM
open HashTable (ok_bind)

/-! ## Running the file monad -/

section
variable {α β : Type} {s s' : FState}

theorem run_ok {m : FileM α} {f : α → FileM β} {a : α} (h : m s = (.ok a, s')) : (m >>= f) s = f a s' := by
  show FileM.bind m f s = _
  unfold FileM.bind
  rw [h]
theorem run_err {m : FileM α} {f : α → FileM β} {e : Err} (h : m s = (.error e, s')) : (m >>= f) s = (.error e, s') := by
  show FileM.bind m f s = _
  unfold FileM.bind
  rw [h]
end

/-- the state after opening for writing -/
def FState.created (s : FState) (name : String) : FState :=
  { s with files := fun f => if f = name then some [] else s.files f, streams := s.streams + 1 }
/-- the state with the contents of one file replaced -/
def FState.store (s : FState) (name : String) (c : List Nat) : FState :=
  { s with files := fun f => if f = name then some c else s.files f }

theorem FState.store_store (s : FState) (name : String) (c d : List Nat) : (s.store name c).store name d = s.store name d := by
  unfold FState.store
  congr 1
  funext f
  by_cases h : f = name <;> simp [h]
theorem FState.store_at (s : FState) (name : String) (c : List Nat) : (s.store name c).files name = some c := by
  simp [FState.store]
theorem FState.created_store (s : FState) (name : String) : (s.created name).store name [] = s.created name := by
  unfold FState.store FState.created
  congr 1
  funext f
  by_cases h : f = name <;> simp [h]

theorem FState.created_store' (s : FState) (name : String) (c : List Nat) :
    (s.created name).store name c = { s.store name c with streams := s.streams + 1 } := by
  unfold FState.store FState.created
  congr 1
  funext f
  by_cases h : f = name <;> simp [h]

theorem write_run (h : Host) (name : String) (x old : List Nat) (s : FState) :
    write h name x (s.store name old) = (.ok (), s.store name (old ++ x.take (h.accept old.length x.length))) := by
  unfold write
  simp only [FState.store_at, Option.getD_some]
  congr 1
  exact FState.store_store s name _ _

/-! ## Several writes -/

/-- the contents after writing the pieces one after the other -/
def appended (h : Host) : List Nat → List (List Nat) → List Nat
  | old, [] => old
  | old, x :: l => appended h (old ++ x.take (h.accept old.length x.length)) l

/-- The host takes everything. -/
def TakesAll (h : Host) : Prop := ∀ len k, k ≤ h.accept len k
/-- The host takes bytes until `room` bytes are stored. -/
def TakesUpTo (h : Host) (room : Nat) : Prop := ∀ len k, h.accept len k = min k (room - len)

theorem appended_all {h : Host} (hh : TakesAll h) : ∀ (l : List (List Nat)) (old : List Nat),
    appended h old l = old ++ l.flatten
  | [], old => by simp [appended]
  | x :: l, old => by
    rw [appended, appended_all hh l, List.take_of_length_le (hh _ _)]
    simp

theorem appended_room {h : Host} {room : Nat} (hh : TakesUpTo h room) : ∀ (l : List (List Nat)) (old : List Nat),
    old.length ≤ room → appended h old l = (old ++ l.flatten).take room
  | [], old, ho => by simp [appended, List.take_of_length_le ho]
  | x :: l, old, ho => by
    have e : x.take (h.accept old.length x.length) = x.take (room - old.length) := by
      rw [hh]
      by_cases hx : x.length ≤ room - old.length
      · rw [Nat.min_eq_left hx, List.take_of_length_le (Nat.le_refl _), List.take_of_length_le hx]
      · rw [Nat.min_eq_right (by omega)]
    have e2 : old ++ x.take (room - old.length) = (old ++ x).take room := by
      rw [List.take_append, List.take_of_length_le ho]
    rw [appended, e, e2, appended_room hh l _ (by simp), List.flatten_cons, ← List.append_assoc]
    by_cases hx : (old ++ x).length ≤ room
    · rw [List.take_of_length_le hx]
    · have hy : room ≤ (old ++ x).length := by omega
      rw [List.take_append_of_le_length (l₁ := (old ++ x).take room) (by rw [List.length_take]; omega),
        List.take_append_of_le_length (l₁ := old ++ x) hy, List.take_take, Nat.min_self]

/-! ## The rank -/

theorem rankBytes_eq {v : Nat} (h : v < 2 ^ 64) : rankBytes v = bigEndian8 v := by
  have e : ∀ k, k ≤ 7 → ((BitVec.ofNat 64 v) >>> (8 * k)).toNat % 256 = v / 256 ^ k % 256 := by
    intro k _
    rw [BitVec.toNat_ushiftRight, BitVec.toNat_ofNat, Nat.mod_eq_of_lt h, Nat.shiftRight_eq_div_pow, Nat.pow_mul]
  have m : ∀ k, k ≤ 7 → ((0xff#64 <<< (8 * k) &&& BitVec.ofNat 64 v) >>> (8 * k)).toNat % 256 = v / 256 ^ k % 256 := by
    intro k hk
    rw [← e k hk]
    apply Nat.eq_of_testBit_eq
    intro i
    rw [show (256 : Nat) = 2 ^ 8 from rfl, Nat.testBit_mod_two_pow, Nat.testBit_mod_two_pow]
    by_cases hi : i < 8
    · simp only [hi, decide_true, Bool.true_and]
      simp only [BitVec.testBit_toNat, BitVec.getLsbD_ushiftRight, BitVec.getLsbD_and, BitVec.getLsbD_shiftLeft]
      rw [show 8 * k + i - 8 * k = i by omega]
      have : (0xff#64).getLsbD i = true := by
        have : i = 0 ∨ i = 1 ∨ i = 2 ∨ i = 3 ∨ i = 4 ∨ i = 5 ∨ i = 6 ∨ i = 7 := by omega
        rcases this with rfl | rfl | rfl | rfl | rfl | rfl | rfl | rfl <;> rfl
      rw [this]
      simp
      omega
    · simp [hi]
  have m7 := m 7 (by omega)
  have m6 := m 6 (by omega)
  have m5 := m 5 (by omega)
  have m4 := m 4 (by omega)
  have m3 := m 3 (by omega)
  have m2 := m 2 (by omega)
  have m1 := m 1 (by omega)
  have m0 := m 0 (by omega)
  simp only [Nat.reduceMul, BitVec.reduceHShiftLeft, BitVec.ushiftRight_zero] at m0 m1 m2 m3 m4 m5 m6 m7
  simp only [rankBytes, bigEndian8, List.range_succ, List.range_zero, List.nil_append, List.cons_append, List.map_cons,
    List.map_nil, m7, m6, m5, m4, m3, m2, m1, m0]

/-! ## Writing the result -/

theorem mapM_rd {b : Mem Nat} {off : Nat} : ∀ (l : List Nat), (∀ i ∈ l, off + i < b.size) →
    l.mapM (fun i => b.rd (off + i)) = .ok (l.map (fun i => b.data (off + i)))
  | [], _ => rfl
  | a :: l, h => by
    rw [List.mapM_cons, Mem.rd_ok _ (h a List.mem_cons_self), ok_bind, mapM_rd l (fun i hi => h i (List.mem_cons_of_mem _ hi)),
      ok_bind]
    rfl

theorem slice_ok {b : Mem Nat} {off cnt : Nat} (h : off + cnt ≤ b.size) :
    slice b off cnt = .ok ((List.range cnt).map (fun i => b.data (off + i))) :=
  mapM_rd _ (fun i hi => by have := List.mem_range.1 hi; omega)

/-- the pieces written by `writeRows` -/
theorem writeRows_run (h : Host) (name : String) {n : Nat} {r : BwtResult} (hn : n < 2 ^ 64) (hs : r.bwt.size = n + 1)
    (hl : r.last ≤ n) (s : FState) (old : List Nat) :
    ∃ l : List (List Nat), l.flatten = rowsWithout n r.bwt.data r.last ∧
      writeRows h name n r (s.store name old) = (.ok (), s.store name (appended h old l)) := by
  unfold writeRows
  by_cases h0 : r.last = 0
  · rw [if_pos h0]
    refine ⟨[(List.range n).map (fun i => r.bwt.data (1 + i))], ?_, ?_⟩
    · rw [rowsWithout_split _ hl, h0]; simp
    · rw [run_ok (m := lift _) (by unfold lift; rw [slice_ok (by omega)]), write_run, appended, appended]
  · rw [if_neg h0]
    by_cases h1 : r.last = n
    · rw [if_pos h1]
      refine ⟨[(List.range n).map (fun i => r.bwt.data (0 + i))], ?_, ?_⟩
      · rw [rowsWithout_split _ hl, h1]; simp
      · rw [run_ok (m := lift _) (by unfold lift; rw [slice_ok (by omega)]), write_run, appended, appended]
    · rw [if_neg h1]
      refine ⟨[(List.range r.last).map (fun i => r.bwt.data (0 + i)),
        (List.range (n - r.last)).map (fun i => r.bwt.data (r.last + 1 + i))], ?_, ?_⟩
      · rw [rowsWithout_split _ hl]; simp
      · rw [run_ok (m := lift _) (by unfold lift; rw [slice_ok (by omega)]), run_ok (write_run h name _ old s),
          show (2 ^ 64 + n - r.last) % 2 ^ 64 = n - r.last by omega,
          run_ok (m := lift _) (by unfold lift; rw [slice_ok (by omega)]), write_run, appended, appended, appended]

theorem writeResult_run (h : Host) (name : String) {n : Nat} {r : BwtResult} (hn : n < 2 ^ 64) (hs : r.bwt.size = n + 1)
    (hl : r.last ≤ n) (s : FState) (hb : 2 ≤ s.blocks) (hw : h.mayWrite name = true) :
    ∃ l : List (List Nat), l.flatten = bigEndian8 r.last ++ rowsWithout n r.bwt.data r.last ∧
      writeResult h name n (some r) s = (.ok (), { s.store name (appended h [] l) with blocks := s.blocks - 2 }) := by
  obtain ⟨l, h1, h2⟩ := writeRows_run h name hn hs hl (s.created name)
    ([] ++ (rankBytes r.last).take (h.accept ([] : List Nat).length (rankBytes r.last).length))
  refine ⟨rankBytes r.last :: l, by rw [List.flatten_cons, h1, rankBytes_eq (by omega)], ?_⟩
  unfold writeResult
  rw [run_ok (s' := s.created name) (a := true) (by unfold openW; rw [if_pos hw]; rfl)]
  simp only [if_true]
  rw [← FState.created_store s name, run_ok (write_run h name _ [] _), run_ok h2]
  simp only [appended, FState.created_store']
  rw [run_ok (m := close) (a := ()) (s' := s.store name _) (by unfold close; rw [if_pos (by exact Nat.le_add_left 1 _)]; rfl)]
  unfold dealloc
  rw [if_pos (by exact hb)]
  rfl

/-! ## The whole -/

/-- The text that is transformed: the bytes that were delivered, then whatever `malloc` returned. -/
def fileText (h : Host) (content : List Nat) (n : Nat) : List Nat :=
  delivered h content n ++ (List.range (n - (delivered h content n).length)).map
    (fun i => h.fresh ((delivered h content n).length + i) % 256)

theorem delivered_le (h : Host) (c : List Nat) (n : Nat) : (delivered h c n).length ≤ n := by
  unfold delivered; rw [List.length_take, List.length_take]; omega

theorem fileText_length (h : Host) (c : List Nat) (n : Nat) : (fileText h c n).length = n := by
  have := delivered_le h c n
  unfold fileText; simp; omega

theorem fileText_byte {h : Host} {c : List Nat} {n : Nat} (hb : ∀ x ∈ c, x < 256) : ∀ x ∈ fileText h c n, x < 256 := by
  intro x hx
  rcases List.mem_append.1 hx with hx | hx
  · exact hb x (List.mem_of_mem_take (List.mem_of_mem_take hx))
  · obtain ⟨i, _, rfl⟩ := List.mem_map.1 hx
    exact Nat.mod_lt _ (by decide)

theorem fileText_full {h : Host} {c : List Nat} (hr : c.length ≤ h.readMax) : fileText h c c.length = c := by
  unfold fileText delivered
  rw [List.take_of_length_le (Nat.le_refl _), List.take_of_length_le hr, Nat.sub_self]
  simp

theorem fread_run {h : Host} {c : List Nat} {n : Nat} :
    ∃ T, freadBlock h (n + 1) (delivered h c n) = .ok T ∧ T.size = n + 1 ∧
      ∀ (i : Nat) (hi : i < (fileText h c n).length), T.data i = (fileText h c n)[i] := by
  have := delivered_le h c n
  unfold freadBlock
  rw [if_pos (by omega)]
  refine ⟨_, rfl, rfl, fun i hi => ?_⟩
  simp only
  have hi' := hi
  unfold fileText at hi ⊢
  split
  · next h1 => rw [List.getElem_append_left h1, getD_lt h1]
  · next h1 =>
    rw [List.getElem_append_right (by omega)]
    simp only [List.getElem_map, List.getElem_range]
    congr 2; omega

theorem transform_run (w : World) {T : Mem Nat} {t : List Nat} (h3 : 3 ≤ t.length) (h57 : t.length < 2 ^ 57)
    (hb : ∀ x ∈ t, x < 256) (hs : SortsOK w.sorter) (hl : LengthsSafe w.junk t) (hroom : enoughFor t.length ≤ w.junk.lim) (hT : T.size = t.length + 1)
    (hd : ∀ (i : Nat) (hi : i < t.length), T.data i = t[i]) :
    ∃ r, transform w T t.length = .ok (some r) ∧ r.bwt.size = t.length + 1 ∧ IsBWT t r.bwt.data r.last := by
  obtain ⟨r, e, h1, h2⟩ := bwtString_good w (T := T.upd t.length 0) (s := t)
    ⟨h3, h57, hb, ⟨⟨by simp [Mem.upd, hT], fun i hi => by rw [Mem.upd_data_ne _ _ (by omega)]; exact hd i hi⟩,
      fun c _ => by rw [Mem.upd_data_self]; exact Nat.zero_le _⟩, hs, hl, hroom⟩ true
  refine ⟨r, ?_, h1, h2⟩
  unfold transform
  rw [Mem.wr_ok _ _ (by omega), ok_bind, e, ok_bind]

section
variable (w : World) (h : Host) (inp out : String) (s : FState)

/-- the first part of a run: everything was read, the transform is done -/
theorem bwtFile_upto {content : List Nat} {n : Nat} (hf : s.files inp = some content) (hr : h.mayRead inp = true)
    (ht : h.tell content = n) (hm : h.mallocOk (n + 1) = true) (hk : 1 ≤ (delivered h content n).length) (h3 : 3 ≤ n)
    (h57 : n < 2 ^ 57) (hb : ∀ x ∈ content, x < 256) (hs : SortsOK w.sorter) (hl : LengthsSafe w.junk (fileText h content n))
    (hroom : enoughFor n ≤ w.junk.lim) :
    ∃ r, r.bwt.size = n + 1 ∧ IsBWT (fileText h content n) r.bwt.data r.last ∧
      bwtFile w h inp out s = writeResult h out n (some r) { s with blocks := s.blocks + 2 } := by
  have hlen := fileText_length h content n
  obtain ⟨T, e1, hT, hd⟩ := fread_run (h := h) (c := content) (n := n)
  obtain ⟨r, e2, h1, h2⟩ := transform_run w (T := T) (t := fileText h content n) (by omega) (by omega)
    (fileText_byte hb) hs hl (by rw [hlen]; exact hroom) (by rw [hT, hlen]) hd
  rw [hlen] at e2 h1
  refine ⟨r, h1, h2, ?_⟩
  unfold bwtFile
  rw [run_ok (a := some content) (s' := { s with streams := s.streams + 1 }) (by unfold openR; rw [hf]; simp [hr])]
  have en : (h.tell content % 2 ^ 64).toNat = n := by rw [ht]; omega
  simp only [en]
  rw [Nat.mod_eq_of_lt (by omega), if_pos hm, run_ok (m := alloc 1) rfl, e1, run_ok (m := lift _) rfl, if_neg (by omega),
    run_ok (m := close) rfl, e2, run_ok (m := lift _) rfl, run_ok (m := dealloc 1) rfl]
  simp only [Option.isSome_some, if_true]
  rw [run_ok (m := alloc 2) rfl]
  rfl

/-- A run that reads at least one byte. -/
theorem bwtFile_run {content : List Nat} {n : Nat} (hf : s.files inp = some content) (hr : h.mayRead inp = true)
    (ht : h.tell content = n) (hm : h.mallocOk (n + 1) = true) (hk : 1 ≤ (delivered h content n).length) (h3 : 3 ≤ n)
    (h57 : n < 2 ^ 57) (hb : ∀ x ∈ content, x < 256) (hs : SortsOK w.sorter) (hl : LengthsSafe w.junk (fileText h content n))
    (hroom : enoughFor n ≤ w.junk.lim)
    (hw : h.mayWrite out = true) :
    ∃ l : List (List Nat), FileFormat (fileText h content n) l.flatten ∧
      bwtFile w h inp out s = (.ok (), s.store out (appended h [] l)) := by
  have hlen := fileText_length h content n
  obtain ⟨r, h1, h2, e⟩ := bwtFile_upto w h inp out s hf hr ht hm hk h3 h57 hb hs hl hroom
  have hlast := h2.last_lt
  obtain ⟨l, h4, h5⟩ := writeResult_run h out (n := n) (r := r) (by omega) (by omega) (by omega) { s with blocks := s.blocks + 2 } (Nat.le_add_left 2 _) hw
  refine ⟨l, ⟨_, _, h2, by rw [hlen]; exact h4⟩, ?_⟩
  rw [e, h5]
  rfl

end

/-- A call on a readable file with the given contents of at least 3 (and less than `2^57`) bytes, on a host where `ftell`,
`malloc`, `realloc` and `fread` work. -/
structure FileCall (w : World) (h : Host) (inp : String) (s : FState) (content : List Nat) : Prop where
  file : s.files inp = some content
  read : h.mayRead inp = true
  tell : h.tell content = content.length
  malloc : h.mallocOk (content.length + 1) = true
  full : content.length ≤ h.readMax
  len3 : 3 ≤ content.length
  len57 : content.length < 2 ^ 57
  byte : ∀ x ∈ content, x < 256
  sort : SortsOK w.sorter
  safe : LengthsSafe w.junk content
  room : enoughFor content.length ≤ w.junk.lim

theorem delivered_full {h : Host} {c : List Nat} (hr : c.length ≤ h.readMax) : delivered h c c.length = c := by
  unfold delivered
  rw [List.take_of_length_le (Nat.le_refl _), List.take_of_length_le hr]

section
variable {w : World} {h : Host} {inp out : String} {s : FState} {content : List Nat}

theorem FileCall.run (g : FileCall w h inp s content) (hw : h.mayWrite out = true) :
    ∃ l : List (List Nat), FileFormat content l.flatten ∧ bwtFile w h inp out s = (.ok (), s.store out (appended h [] l)) := by
  have h3 := g.len3
  have := bwtFile_run w h inp out s g.file g.read g.tell g.malloc (by rw [delivered_full g.full]; omega) h3 g.len57
    g.byte g.sort (by rw [fileText_full g.full]; exact g.safe) g.room hw
  rwa [fileText_full g.full] at this

/-- **C07** `bwt_file` on a file with contents `content`: it returns normally; afterwards the output file holds exactly the
format of `content` (8 big endian bytes of `last`, then the transform without row `last`) and every other file is what it
was. Input and output may be the same file. -/
theorem C07_file_format (g : FileCall w h inp s content) (hw : h.mayWrite out = true) (ha : TakesAll h) :
    ∃ bytes s', bwtFile w h inp out s = (.ok (), s') ∧ FileFormat content bytes ∧ s'.files out = some bytes ∧
      ∀ f, f ≠ out → s'.files f = s.files f := by
  obtain ⟨l, h1, h2⟩ := g.run hw
  refine ⟨l.flatten, _, h2, h1, ?_, ?_⟩
  · rw [FState.store_at, appended_all ha]; rfl
  · intro f hf; simp [FState.store, hf]

/-- **C08** the contents can be reconstructed from the bytes in the output file. -/
theorem C08_lossless (g : FileCall w h inp s content) (hw : h.mayWrite out = true) (ha : TakesAll h) :
    ∃ bytes s', bwtFile w h inp out s = (.ok (), s') ∧ s'.files out = some bytes ∧ decodeFile bytes = content ∧
      bytes.length = content.length + 8 := by
  obtain ⟨bytes, s', e, h1, h2, _⟩ := C07_file_format g hw ha
  have h57 := g.len57
  refine ⟨bytes, s', e, h2, h1.decode (by omega), ?_⟩
  obtain ⟨b, last, h3, rfl⟩ := h1
  have := h3.last_lt
  rw [List.length_append, bigEndian8_length, rowsWithout_length b (by omega)]
  omega

/-- … so two runs, in any circumstances, that leave the same output had the same input. -/
theorem C08_injective {w' : World} {h' : Host} {inp' out' : String} {s₂ : FState} {content' : List Nat}
    (g : FileCall w h inp s content) (hw : h.mayWrite out = true) (ha : TakesAll h)
    (g' : FileCall w' h' inp' s₂ content') (hw' : h'.mayWrite out' = true) (ha' : TakesAll h') :
    (bwtFile w h inp out s).2.files out = (bwtFile w' h' inp' out' s₂).2.files out' ↔ content = content' := by
  obtain ⟨b, t, e, h1, h2, _⟩ := C07_file_format g hw ha
  obtain ⟨b', t', e', h1', h2', _⟩ := C07_file_format g' hw' ha'
  have h57 := g.len57
  have h57' := g'.len57
  rw [e, e', h2, h2']
  constructor
  · intro hb
    have hb := Option.some.inj hb
    rw [← h1.decode (by omega), hb, h1'.decode (by omega)]
  · rintro rfl
    rw [h1.unique h1']

/-- **C09** errors, for every answer of the host: an input that cannot be opened gives `invalid_argument` and changes nothing
at all. -/
theorem C09_no_input (w : World) (h : Host) (inp out : String) (s : FState) (hn : s.files inp = none ∨ h.mayRead inp = false) :
    bwtFile w h inp out s = (.error (.throw .invalidArgument), s) := by
  unfold bwtFile
  rw [run_ok (a := none) (s' := s) ?_]
  · rfl
  · unfold openR
    rcases hn with hn | hn
    · rw [hn]
    · rw [hn]; cases s.files inp <;> simp

/-- **C09** if `malloc` fails: `runtime_error`, nothing changed. -/
theorem C09_no_memory (w : World) (h : Host) (inp out : String) (s : FState) (hf : s.files inp = some content)
    (hr : h.mayRead inp = true) (hm : h.mallocOk (((h.tell content % 2 ^ 64).toNat + 1) % 2 ^ 64) = false) :
    bwtFile w h inp out s = (.error (.throw .runtimeError), s) := by
  unfold bwtFile
  rw [run_ok (a := some content) (s' := { s with streams := s.streams + 1 }) (by unfold openR; rw [hf]; simp [hr])]
  simp only [hm]
  rfl

/-- **C09** if nothing can be read, in particular for an empty file: `runtime_error`; no file is touched. -/
theorem C09_nothing_read (w : World) (h : Host) (inp out : String) (s : FState) (hf : s.files inp = some content)
    (hr : h.mayRead inp = true) (h0 : content = [] ∨ h.readMax = 0) :
    ∃ s', bwtFile w h inp out s = (.error (.throw .runtimeError), s') ∧ s'.files = s.files := by
  have e0 : ∀ n, delivered h content n = [] := by
    intro n; unfold delivered
    rcases h0 with h0 | h0 <;> simp [h0]
  unfold bwtFile
  rw [run_ok (a := some content) (s' := { s with streams := s.streams + 1 }) (by unfold openR; rw [hf]; simp [hr])]
  simp only [e0, List.length_nil, if_true]
  split
  · rw [run_ok (m := alloc 1) rfl]
    have ef : ∀ k, ∃ T, freadBlock h k [] = .ok T := fun k => by
      unfold freadBlock; rw [if_pos (by simp)]; exact ⟨_, rfl⟩
    obtain ⟨T, ef⟩ := ef (((h.tell content % 2 ^ 64).toNat + 1) % 2 ^ 64)
    rw [ef, run_ok (m := lift _) rfl]
    exact ⟨_, rfl, rfl⟩
  · exact ⟨_, rfl, rfl⟩

/-- **C09** if the output cannot be opened: `invalid_argument`; no file is touched. -/
theorem C09_no_output (g : FileCall w h inp s content) (hw : h.mayWrite out = false) :
    ∃ s', bwtFile w h inp out s = (.error (.throw .invalidArgument), s') ∧ s'.files = s.files := by
  have h3 := g.len3
  obtain ⟨r, _, _, e⟩ := bwtFile_upto w h inp out s g.file g.read g.tell g.malloc
    (by rw [delivered_full g.full]; omega) h3 g.len57 g.byte g.sort (by rw [fileText_full g.full]; exact g.safe) g.room
  rw [e]
  unfold writeResult
  rw [run_ok (a := false) (s' := { s with blocks := s.blocks + 2 }) (by unfold openW; rw [hw]; rfl)]
  exact ⟨_, rfl, rfl⟩

/-! ## More properties -/

/-- `m` touches no file but `out`. -/
def OnlyFile (out : String) {α : Type} (m : FileM α) : Prop := ∀ s f, f ≠ out → (m s).2.files f = s.files f

theorem OnlyFile.bind {α β : Type} {m : FileM α} {f : α → FileM β} (hm : OnlyFile out m) (hf : ∀ a, OnlyFile out (f a)) :
    OnlyFile out (m >>= f) := by
  intro s x hx
  show (FileM.bind m f s).2.files x = _
  unfold FileM.bind
  have := hm s x hx
  cases hms : m s with
  | mk r s' =>
    rw [hms] at this
    cases r with
    | ok a => exact (hf a s' x hx).trans this
    | error e => exact this

theorem OnlyFile.lift {α : Type} {m : M α} : OnlyFile out (lift m) := fun _ _ _ => rfl
theorem OnlyFile.fail {α : Type} {e : Err} : OnlyFile out (fail e : FileM α) := fun _ _ _ => rfl
theorem OnlyFile.alloc {k : Nat} : OnlyFile out (alloc k) := fun _ _ _ => rfl
theorem OnlyFile.dealloc {k : Nat} : OnlyFile out (dealloc k) := fun _ _ _ => by unfold FileM.dealloc; split <;> rfl
theorem OnlyFile.close : OnlyFile out close := fun _ _ _ => by unfold FileM.close; split <;> rfl
theorem OnlyFile.openR {name : String} : OnlyFile out (openR h name) := by
  intro s f _
  unfold FileM.openR
  split
  · split <;> rfl
  · rfl
theorem OnlyFile.openW : OnlyFile out (openW h out) := by
  intro s f hf
  unfold FileM.openW
  split
  · simp [hf]
  · rfl
theorem OnlyFile.write {x : List Nat} : OnlyFile out (write h out x) := by
  intro s f hf
  unfold FileM.write
  simp [hf]
theorem OnlyFile.writeRows {n : Nat} {r : BwtResult} : OnlyFile out (writeRows h out n r) := by
  unfold Flbwt.writeRows
  split
  · exact OnlyFile.lift.bind (fun _ => OnlyFile.write)
  · split
    · exact OnlyFile.lift.bind (fun _ => OnlyFile.write)
    · exact OnlyFile.lift.bind (fun _ => OnlyFile.write.bind (fun _ => OnlyFile.lift.bind (fun _ => OnlyFile.write)))
theorem OnlyFile.writeResult {n : Nat} {b : Option BwtResult} : OnlyFile out (writeResult h out n b) := by
  unfold Flbwt.writeResult
  refine OnlyFile.openW.bind (fun o => ?_)
  split
  · split
    · exact OnlyFile.write.bind (fun _ => OnlyFile.writeRows.bind (fun _ => OnlyFile.close.bind (fun _ => OnlyFile.dealloc)))
    · exact OnlyFile.close
  · exact OnlyFile.fail

/-- **C37** no run of `bwt_file`, whatever its outcome (also a fault or an exception), whatever the host answers and whatever
memory contains, changes a file other than the output file. -/
theorem C37_only_output_changes (w : World) (h : Host) (inp out : String) (s : FState) (f : String) (hf : f ≠ out) :
    (bwtFile w h inp out s).2.files f = s.files f := by
  suffices H : OnlyFile out (bwtFile w h inp out) from H s f hf
  unfold bwtFile
  refine OnlyFile.openR.bind (fun c => ?_)
  split
  · exact OnlyFile.fail
  · dsimp only
    split
    · refine OnlyFile.alloc.bind (fun _ => OnlyFile.lift.bind (fun T => ?_))
      split
      · exact OnlyFile.fail
      · refine OnlyFile.close.bind (fun _ => OnlyFile.lift.bind (fun b => OnlyFile.dealloc.bind (fun _ => ?_)))
        split <;> exact OnlyFile.alloc.bind (fun _ => OnlyFile.writeResult)
    · exact OnlyFile.close.bind (fun _ => OnlyFile.fail)

/-- **C38** (violated expectation) an input that cannot be positioned, such as a pipe, for which `ftell` returns -1: as soon
as one byte arrives it is written outside the block of 0 bytes. Nothing is written to any file. -/
theorem C38_pipe_heap_overflow (w : World) (h : Host) (inp out : String) (s : FState) (hf : s.files inp = some content)
    (hr : h.mayRead inp = true) (ht : h.tell content = -1) (hm : h.mallocOk 0 = true) (hc : content ≠ [])
    (hlen : content.length < 2 ^ 64) (hk : 0 < h.readMax) :
    ∃ s', bwtFile w h inp out s = (.error (.ub .outOfBounds), s') ∧ s'.files = s.files := by
  have hp := List.length_pos_iff.2 hc
  have e0 : 0 < (delivered h content (2 ^ 64 - 1)).length := by
    unfold delivered; rw [List.length_take, List.length_take]; omega
  have ef : freadBlock h 0 (delivered h content (2 ^ 64 - 1)) = .error (.ub .outOfBounds) := by
    unfold freadBlock; rw [if_neg (by omega)]
  unfold bwtFile
  rw [run_ok (a := some content) (s' := { s with streams := s.streams + 1 }) (by unfold openR; rw [hf]; simp [hr])]
  have en : (h.tell content % 2 ^ 64).toNat = 2 ^ 64 - 1 := by rw [ht]; decide
  have en2 : (2 ^ 64 - 1 + 1) % 2 ^ 64 = 0 := by decide
  simp only [en, en2]
  rw [if_pos hm, run_ok (m := alloc 1) rfl, ef, run_err (m := lift _) rfl]
  exact ⟨_, rfl, rfl⟩

/-- **C39** (violated expectation) a short read is not detected: if `fread` delivers only `k` of the `n` bytes, `1 ≤ k < n`,
the call returns normally and the output is the format of another string, the first `k` bytes followed by whatever the
allocated block contained. -/
theorem C39_short_read_undetected (w : World) (h : Host) (inp out : String) (s : FState) (hf : s.files inp = some content)
    (hr : h.mayRead inp = true) (ht : h.tell content = content.length) (hm : h.mallocOk (content.length + 1) = true)
    (hk : 1 ≤ h.readMax) (hkn : h.readMax < content.length) (h3 : 3 ≤ content.length) (h57 : content.length < 2 ^ 57)
    (hb : ∀ x ∈ content, x < 256) (hs : SortsOK w.sorter) (hw : h.mayWrite out = true) (ha : TakesAll h) (t : List Nat)
    (htl : t.length = content.length - h.readMax) (htv : ∀ (i : Nat) (hi : i < t.length), t[i] = h.fresh (h.readMax + i) % 256)
    (hl : LengthsSafe w.junk (content.take h.readMax ++ t)) (hroom : enoughFor content.length ≤ w.junk.lim) :
    ∃ bytes s', bwtFile w h inp out s = (.ok (), s') ∧ s'.files out = some bytes ∧
      FileFormat (content.take h.readMax ++ t) bytes ∧ decodeFile bytes = content.take h.readMax ++ t := by
  have ed : delivered h content content.length = content.take h.readMax := by
    unfold delivered; rw [List.take_of_length_le (l := content) (Nat.le_refl _)]
  have et : fileText h content content.length = content.take h.readMax ++ t := by
    unfold fileText
    rw [ed]
    congr 1
    rw [List.length_take]
    apply List.ext_getElem
    · simp; omega
    · intro i h1 h2
      rw [htv i h2]
      simp only [List.getElem_map, List.getElem_range]
      congr 2
      omega
  obtain ⟨l, h1, h2⟩ := bwtFile_run w h inp out s hf hr ht hm (by rw [ed, List.length_take]; omega) h3 h57 hb hs
    (by rw [et]; exact hl) hroom hw
  rw [et] at h1
  refine ⟨l.flatten, _, h2, ?_, h1, h1.decode ?_⟩
  · rw [FState.store_at, appended_all ha]; rfl
  · rw [List.length_append, List.length_take, htl]; omega

/-- **C40** (violated expectation) a full disk is not detected: on a host that stores at most `room` bytes the call returns
normally and leaves the first `room` bytes of the output, for every `room`. -/
theorem C40_full_disk_undetected (g : FileCall w h inp s content) (hw : h.mayWrite out = true) (room : Nat)
    (ha : TakesUpTo h room) :
    ∃ bytes s', bwtFile w h inp out s = (.ok (), s') ∧ FileFormat content bytes ∧ s'.files out = some (bytes.take room) := by
  obtain ⟨l, h1, h2⟩ := g.run hw
  refine ⟨l.flatten, _, h2, h1, ?_⟩
  rw [FState.store_at, appended_room ha l [] (Nat.zero_le _)]
  rfl

/-- **C41** a call that returns normally leaves no stream open and no block behind … -/
theorem C41_no_leak (g : FileCall w h inp s content) (hw : h.mayWrite out = true) :
    ∃ s', bwtFile w h inp out s = (.ok (), s') ∧ s'.streams = s.streams ∧ s'.blocks = s.blocks := by
  obtain ⟨l, _, h2⟩ := g.run hw
  exact ⟨_, h2, rfl, rfl⟩

/-- … but (violated) when nothing could be read the input stream and the text stay behind … -/
theorem C41_leak_on_read_failure (w : World) (h : Host) (inp out : String) (s : FState) (hf : s.files inp = some content)
    (hr : h.mayRead inp = true) (h0 : content = [] ∨ h.readMax = 0)
    (hm : h.mallocOk (((h.tell content % 2 ^ 64).toNat + 1) % 2 ^ 64) = true) :
    bwtFile w h inp out s = (.error (.throw .runtimeError), { s with streams := s.streams + 1, blocks := s.blocks + 1 }) := by
  have e0 : ∀ n, delivered h content n = [] := by
    intro n; unfold delivered
    rcases h0 with h0 | h0 <;> simp [h0]
  have ef : ∀ k, ∃ T, freadBlock h k [] = .ok T := fun k => by
    unfold freadBlock; rw [if_pos (by simp)]; exact ⟨_, rfl⟩
  obtain ⟨T, ef⟩ := ef (((h.tell content % 2 ^ 64).toNat + 1) % 2 ^ 64)
  unfold bwtFile
  rw [run_ok (a := some content) (s' := { s with streams := s.streams + 1 }) (by unfold openR; rw [hf]; simp [hr])]
  simp only [e0, List.length_nil, if_true]
  rw [if_pos hm, run_ok (m := alloc 1) rfl, ef, run_ok (m := lift _) rfl]
  rfl

/-- … and when the output cannot be opened the result (two blocks) stays behind. -/
theorem C41_leak_on_output_failure (g : FileCall w h inp s content) (hw : h.mayWrite out = false) :
    bwtFile w h inp out s = (.error (.throw .invalidArgument), { s with blocks := s.blocks + 2 }) := by
  have h3 := g.len3
  obtain ⟨r, _, _, e⟩ := bwtFile_upto w h inp out s g.file g.read g.tell g.malloc
    (by rw [delivered_full g.full]; omega) h3 g.len57 g.byte g.sort (by rw [fileText_full g.full]; exact g.safe) g.room
  rw [e]
  unfold writeResult
  rw [run_ok (a := false) (s' := { s with blocks := s.blocks + 2 }) (by unfold openW; rw [hw]; rfl)]
  rfl

/-- **C42** (violated expectation) a file of one or two bytes: null pointer dereference; the output file is not touched. -/
theorem C42_short_file (w : World) (h : Host) (inp out : String) (s : FState) (hf : s.files inp = some content)
    (hr : h.mayRead inp = true) (ht : h.tell content = content.length) (hm : h.mallocOk (content.length + 1) = true)
    (hk : 1 ≤ h.readMax) (h1 : 1 ≤ content.length) (h2 : content.length ≤ 2) :
    ∃ s', bwtFile w h inp out s = (.error (.ub .nullDeref), s') ∧ s'.files = s.files := by
  have ed : 1 ≤ (delivered h content content.length).length := by
    unfold delivered; rw [List.length_take, List.length_take]; omega
  obtain ⟨T, ef, hT, _⟩ := fread_run (h := h) (c := content) (n := content.length)
  have et : transform w T content.length = .error (.ub .nullDeref) := by
    unfold transform
    rw [Mem.wr_ok _ _ (by omega), ok_bind, C04_short_input_null_deref w _ _ true h1 h2]
    rfl
  have en : (h.tell content % 2 ^ 64).toNat = content.length := by rw [ht]; omega
  unfold bwtFile
  rw [run_ok (a := some content) (s' := { s with streams := s.streams + 1 }) (by unfold openR; rw [hf]; simp [hr])]
  simp only [en]
  rw [Nat.mod_eq_of_lt (by omega), if_pos hm, run_ok (m := alloc 1) rfl, ef, run_ok (m := lift _) rfl, if_neg (by omega),
    run_ok (m := close) rfl, et, run_err (m := lift _) rfl]
  exact ⟨_, rfl, rfl⟩

/-- **C43** the example program: with two arguments and a good file it exits with 0 and has written the output … -/
theorem C43_example_program (g : FileCall w h inp s content) (hw : h.mayWrite out = true) (ha : TakesAll h) (name : String) :
    ∃ bytes s', exampleMain w h [name, inp, out] s = (.ok 0, s') ∧ FileFormat content bytes ∧ s'.files out = some bytes := by
  obtain ⟨bytes, s', e, h1, h2, _⟩ := C07_file_format g hw ha
  refine ⟨bytes, s', ?_, h1, h2⟩
  unfold exampleMain
  simp only
  rw [run_ok e]
  rfl

/-- … with any other number of arguments it exits with -1 and touches nothing. -/
theorem C43_example_usage (w : World) (h : Host) (argv : List String) (s : FState) (ha : argv.length ≠ 3) :
    exampleMain w h argv s = (.ok (-1), s) := by
  match argv, ha with
  | [], _ => rfl
  | [_], _ => rfl
  | [_, _], _ => rfl
  | [_, _, _], ha => exact absurd rfl ha
  | _ :: _ :: _ :: _ :: _, _ => rfl

end

/-! ## The hypotheses can be met -/

/-- a host without failures -/
def niceHost : Host := ⟨fun _ => true, fun _ => true, fun c => c.length, fun _ => true, 2 ^ 60, fun _ => 7, fun _ k => k⟩
/-- a world with non-zero fresh memory -/
def niceWorld : World :=
  ⟨⟨fun i => i, 40000000⟩, fun _ => 9, fun _ => 5, fun _ => 7, fun _ _ => 1, fun _ _ _ _ => 2, fun _ => 3, 4, insSort⟩
/-- a file system with two files -/
def niceFiles : FState := ⟨fun f => if f = "in" then some banana else if f = "out" then some [1, 2, 3] else none, 0, 0⟩

theorem nice_call : FileCall niceWorld niceHost "in" niceFiles banana :=
  ⟨rfl, rfl, rfl, rfl, by decide, by decide, by decide, by decide, insSort_ok, lengthsSafe_short _ (by decide), by decide⟩
theorem nice_takes : TakesAll niceHost := fun _ _ => Nat.le_refl _

example : ∃ bytes s', bwtFile niceWorld niceHost "in" "out" niceFiles = (.ok (), s') ∧ s'.files "out" = some bytes ∧
    decodeFile bytes = banana := by
  obtain ⟨b, s', h1, h2, h3, _⟩ := C08_lossless (out := "out") nice_call rfl nice_takes
  exact ⟨b, s', h1, h2, h3⟩
/-- in place -/
example : ∃ bytes s', bwtFile niceWorld niceHost "in" "in" niceFiles = (.ok (), s') ∧ s'.files "in" = some bytes ∧
    decodeFile bytes = banana := by
  obtain ⟨b, s', h1, h2, h3, _⟩ := C08_lossless (out := "in") nice_call rfl nice_takes
  exact ⟨b, s', h1, h2, h3⟩
example : ∃ s', bwtFile niceWorld { niceHost with mayWrite := fun _ => false } "in" "out" niceFiles =
    (.error (.throw .invalidArgument), s') ∧ s'.files = niceFiles.files :=
  C09_no_output (content := banana)
    ⟨rfl, rfl, rfl, rfl, by decide, by decide, by decide, by decide, insSort_ok, lengthsSafe_short _ (by decide), by decide⟩ rfl
example : ∃ s', bwtFile niceWorld { niceHost with tell := fun _ => -1 } "in" "out" niceFiles =
    (.error (.ub .outOfBounds), s') ∧ s'.files = niceFiles.files :=
  C38_pipe_heap_overflow (content := banana) _ _ _ _ _ rfl rfl rfl rfl (by decide) (by decide) (by decide)
/-- only two bytes arrive: the output decodes to "ba" and four bytes of old memory -/
example : ∃ bytes s', bwtFile niceWorld { niceHost with readMax := 2 } "in" "out" niceFiles = (.ok (), s') ∧
    s'.files "out" = some bytes ∧ decodeFile bytes = [98, 97, 7, 7, 7, 7] := by
  obtain ⟨b, s', h1, h2, _, h3⟩ := C39_short_read_undetected (content := banana) niceWorld { niceHost with readMax := 2 } "in" "out"
    niceFiles rfl rfl rfl rfl (by decide) (by decide) (by decide) (by decide) (by decide) insSort_ok rfl
    (fun _ _ => Nat.le_refl _) [7, 7, 7, 7] rfl (by decide) (lengthsSafe_short _ (by decide)) (by decide)
  exact ⟨b, s', h1, h2, h3⟩
/-- a disk with room for three bytes -/
example : TakesUpTo { niceHost with accept := fun len k => min k (3 - len) } 3 := fun _ _ => rfl

end Flbwt
