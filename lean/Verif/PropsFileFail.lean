import Verif.PropsFile
import Verif.PropsDirty
import Verif.PropsLimit

/-!
# Property C75: `bwt_file` when the transform fails
-/

namespace Flbwt
open FileM HashTable

section
variable (h : Host) (inp out : String) (s : FState)

/-- Everything was read: what `bwt_file` does depends on `bwt_string` only, called on a block that holds the contents of the
file. -/
theorem bwtFile_via {content : List Nat} (hf : s.files inp = some content) (hr : h.mayRead inp = true)
    (ht : h.tell content = content.length) (hm : h.mallocOk (content.length + 1) = true) (hk : content.length ≤ h.readMax)
    (h1 : 1 ≤ content.length) (h64 : content.length < 2 ^ 63) :
    ∃ T, HoldsString T content ∧ T.data content.length = 0 ∧ ∀ w : World,
      (∀ e, bwtString w (some T) content.length true = .error e →
        bwtFile w h inp out s = (.error e, { s with blocks := s.blocks + 1 })) ∧
      (∀ r T', bwtString w (some T) content.length true = .ok (some r, T') →
        bwtFile w h inp out s = writeResult h out content.length (some r) { s with blocks := s.blocks + 2 }) := by
  have ed := delivered_full hk
  have et : fileText h content content.length = content := fileText_full hk
  obtain ⟨T, e1, hT, hd⟩ := fread_run (h := h) (c := content) (n := content.length)
  have en : (h.tell content % 2 ^ 64).toNat = content.length := by rw [ht]; omega
  refine ⟨T.upd content.length 0, ⟨⟨by simp [Mem.upd, hT], ?_⟩, fun c _ => by rw [Mem.upd_data_self]; exact Nat.zero_le _⟩, by rw [Mem.upd_data_self], ?_⟩
  · intro i hi
    rw [Mem.upd_data_ne _ _ (by omega), hd i (by rw [et]; exact hi)]
    simp only [et]
  · intro w
    constructor
    · intro e he
      have etr : transform w T content.length = .error e := by
        unfold transform
        rw [Mem.wr_ok _ _ (by omega), ok_bind, he]
        rfl
      unfold bwtFile
      rw [run_ok (a := some content) (s' := { s with streams := s.streams + 1 }) (by unfold openR; rw [hf]; simp [hr])]
      simp only [en]
      rw [Nat.mod_eq_of_lt (by omega), if_pos hm, run_ok (m := alloc 1) rfl, e1, run_ok (m := lift _) rfl,
        if_neg (by rw [ed]; omega), run_ok (m := close) rfl, etr, run_err (m := lift _) rfl]
      rfl
    · intro r T' he
      have etr : transform w T content.length = .ok (some r) := by
        unfold transform
        rw [Mem.wr_ok _ _ (by omega), ok_bind, he]
        rfl
      unfold bwtFile
      rw [run_ok (a := some content) (s' := { s with streams := s.streams + 1 }) (by unfold openR; rw [hf]; simp [hr])]
      simp only [en]
      rw [Nat.mod_eq_of_lt (by omega), if_pos hm, run_ok (m := alloc 1) rfl, e1, run_ok (m := lift _) rfl,
        if_neg (by rw [ed]; omega), run_ok (m := close) rfl, etr, run_ok (m := lift _) rfl, run_ok (m := dealloc 1) rfl]
      simp only [Option.isSome_some, if_true]
      rw [run_ok (m := alloc 2) rfl]
      rfl

/-- **C75** If the transform of the contents fails, in whatever way and on whatever block the contents are read into,
`bwt_file` fails in the same way and no file has been touched: an older output file is still there. -/
theorem C75_failed_transform (w : World) {content : List Nat} (hf : s.files inp = some content) (hr : h.mayRead inp = true)
    (ht : h.tell content = content.length) (hm : h.mallocOk (content.length + 1) = true) (hk : content.length ≤ h.readMax)
    (h1 : 1 ≤ content.length) (h64 : content.length < 2 ^ 63) (e : Err)
    (hfail : ∀ T, HoldsString T content → bwtString w (some T) content.length true = .error e) :
    ∃ s', bwtFile w h inp out s = (.error e, s') ∧ s'.files = s.files := by
  obtain ⟨T, hT, _, key⟩ := bwtFile_via h inp out s hf hr ht hm hk h1 h64
  exact ⟨_, (key w).1 e (hfail T hT), rfl⟩

/-- **C75** (violated expectation) a file of `256 k - 1` equal bytes, for every byte and every `k`, when the bytes `realloc`
hands out are 13 or more: `bwt_file` writes outside a block; no file has been touched. -/
theorem C75_equal_bytes_file (w : World) (k c : Nat) (hk : 1 ≤ k) (hc : c < 256) (hn : 256 * k - 1 < 2 ^ 57) (hS : SortsOK w.sorter)
    (hjunk : ∀ i, 13 ≤ w.junk i % 256) (hroom : enoughFor (256 * k - 1) ≤ w.junk.lim)
    (hf : s.files inp = some (List.replicate (256 * k - 1) c)) (hr : h.mayRead inp = true)
    (ht : h.tell (List.replicate (256 * k - 1) c) = (256 * k - 1 : Nat)) (hm : h.mallocOk (256 * k) = true)
    (hfull : 256 * k - 1 ≤ h.readMax) :
    ∃ s', bwtFile w h inp out s = (.error (.ub .outOfBounds), s') ∧ s'.files = s.files := by
  have hl : (List.replicate (256 * k - 1) c).length = 256 * k - 1 := List.length_replicate
  refine C75_failed_transform h inp out s w hf hr (by rw [hl]; exact ht)
    (by rw [hl, show 256 * k - 1 + 1 = 256 * k by omega]; exact hm) (by rw [hl]; exact hfull) (by rw [hl]; omega)
    (by rw [hl]; omega) _ ?_
  intro T hT
  exact C45_head_length_256 w T (List.replicate (256 * k - 1) c) (by omega) (by omega)
    (fun x hx => by rw [List.eq_of_mem_replicate hx]; exact hc) hT hS
    (fun i j hi _ => absurd hi.2.2.1 (replicate_not_SType _ _ _)) (256 * k - 1)
    ⟨by omega, by omega, Or.inl hl.symm, fun q _ _ hq => absurd hq.2.2.1 (replicate_not_SType _ _ _)⟩ (by omega) hjunk
    (by rw [hl]; exact hroom) true

end

section
variable {w : World} {h : Host} {inp out : String} {s : FState} {content : List Nat}

/-- **C75** The memory the table needs decides: for every file there is a number `B`, `7 ≤ B ≤ 27·n + 34701855`, such that `bwt_file`
writes the output if the heap can provide a block of `B` bytes for the table, and otherwise dereferences a null pointer with
no file touched. -/
theorem C75_memory_threshold_file (g : FileCall w h inp s content) (hw : h.mayWrite out = true) (ha : TakesAll h) :
    ∃ B bytes, 7 ≤ B ∧ B ≤ 27 * content.length + 34701855 ∧ FileFormat content bytes ∧
      (∀ lim, B ≤ lim → ∃ s', bwtFile (w.limited lim) h inp out s = (.ok (), s') ∧ s'.files out = some bytes ∧
        ∀ f, f ≠ out → s'.files f = s.files f) ∧
      (∀ lim, lim < B → ∃ s', bwtFile (w.limited lim) h inp out s = (.error (.ub .nullDeref), s') ∧ s'.files = s.files) := by
  have h3 := g.len3
  have h57 := g.len57
  obtain ⟨T, hT, _, key⟩ := bwtFile_via h inp out s g.file g.read g.tell g.malloc g.full (by omega) (by omega)
  obtain ⟨B, r, T', hB7, hB, hr, hok, hno⟩ := C46_memory_threshold w (T := T) (s := content)
    ⟨h3, h57, g.byte, hT, g.sort, g.safe, g.room⟩ true
  have hlast := hr.last_lt
  have hsz : r.bwt.size = content.length + 1 := by
    obtain ⟨r2, e2, hs2, _⟩ := bwtString_good w (T := T) (s := content) ⟨h3, h57, g.byte, hT, g.sort, g.safe, g.room⟩ true
    have e1 := hok (max B w.junk.lim) (by omega)
    rcases C46_same_or_null w w.junk.lim (max B w.junk.lim) (by omega) (some T) content.length true with hc | hc
    · rw [e1] at hc
      rw [show bwtString (w.limited w.junk.lim) (some T) content.length true = bwtString w (some T) content.length true from rfl,
        e2] at hc
      injection hc with hc
      injection hc with hc _
      injection hc with hc
      rw [← hc]
      exact hs2
    · rw [show bwtString (w.limited w.junk.lim) (some T) content.length true = bwtString w (some T) content.length true from rfl,
        e2] at hc
      cases hc
  obtain ⟨l, h4, h5⟩ := writeResult_run h out (n := content.length) (r := r) (by omega) (by omega) (by omega)
    { s with blocks := s.blocks + 2 } (Nat.le_add_left 2 _) hw
  refine ⟨B, l.flatten, hB7, hB, ⟨_, _, hr, h4⟩, ?_, ?_⟩
  · intro lim hlim
    have := ((key (w.limited lim)).2 r T' (hok lim hlim)).trans h5
    refine ⟨_, this, ?_, ?_⟩
    · rw [FState.store_at, appended_all ha]; rfl
    · intro f hf; simp [FState.store, hf]
  · intro lim hlim
    exact ⟨_, (key (w.limited lim)).1 _ (hno lim hlim), rfl⟩

end

-- 255 letters "a" in a file, fresh memory full of 0xff: all hypotheses of `C75_equal_bytes_file` are met
example : ∃ s', bwtFile ⟨⟨fun _ => 255, 40000000⟩, fun _ => 9, fun _ => 5, fun _ => 7, fun _ _ => 1, fun _ _ _ _ => 2, fun _ => 3, 4, insSort⟩
    niceHost "in" "out" { niceFiles with files := fun f => if f = "in" then some (List.replicate 255 97) else none } =
      (.error (.ub .outOfBounds), s') ∧ s'.files = fun f => if f = "in" then some (List.replicate 255 97) else none :=
  C75_equal_bytes_file niceHost "in" "out" _ _ 1 97 (by decide) (by decide) (by decide) insSort_ok (fun _ => by simp) (by decide)
    rfl rfl (congrArg Nat.cast List.length_replicate) rfl (by decide)

-- "banana": all hypotheses of `C75_memory_threshold_file` are met
example : ∃ B bytes, 7 ≤ B ∧ B ≤ 27 * banana.length + 34701855 ∧ FileFormat banana bytes ∧
    (∀ lim, B ≤ lim → ∃ s', bwtFile (niceWorld.limited lim) niceHost "in" "out" niceFiles = (.ok (), s') ∧
      s'.files "out" = some bytes ∧ ∀ f, f ≠ "out" → s'.files f = niceFiles.files f) ∧
    (∀ lim, lim < B → ∃ s', bwtFile (niceWorld.limited lim) niceHost "in" "out" niceFiles = (.error (.ub .nullDeref), s') ∧
      s'.files = niceFiles.files) :=
  C75_memory_threshold_file nice_call rfl nice_takes

end Flbwt
