import Verif.PropsSpace

/-!
# Property C46 (`realloc` fails)
-/

namespace Flbwt

open HashTable (ok_bind)

/-- `m'` is the computation `m` under the limit `lim`: the same result while the size `sz` of the buffer is within the
limit, else a null dereference. `s0` is the size before. (proof helper) -/
def Cut {α : Type _} (lim s0 : Nat) (sz : α → Nat) (m m' : M α) : Prop :=
  match m with
  | .ok r => s0 ≤ sz r ∧ (s0 ≤ lim → (sz r ≤ lim → m' = .ok r) ∧ (lim < sz r → m' = .error (.ub .nullDeref)))
  | .error e => s0 ≤ lim → m' = .error e ∨ m' = .error (.ub .nullDeref)

section
variable {α β σ : Type _} {lim s0 : Nat}

theorem Cut.bind {szA : α → Nat} {szB : β → Nat} {m m' : M α} {f f' : α → M β} (h : Cut lim s0 szA m m')
    (hf : ∀ a, m = .ok a → Cut lim (szA a) szB (f a) (f' a)) : Cut lim s0 szB (m >>= f) (m' >>= f') := by
  cases m with
  | error e =>
    intro h0
    rcases h h0 with h | h <;> rw [h]
    · exact Or.inl rfl
    · exact Or.inr rfl
  | ok a =>
    have h2 := hf a rfl
    obtain ⟨h1, h3⟩ := h
    show Cut lim s0 szB (f a) (m' >>= f')
    unfold Cut at h2 ⊢
    cases hb : f a with
    | ok r =>
      rw [hb] at h2
      simp only at h2 ⊢
      refine ⟨by omega, fun h0 => ?_⟩
      by_cases hl : szA a ≤ lim
      · rw [(h3 h0).1 hl]
        exact h2.2 hl
      · rw [(h3 h0).2 (by omega)]
        exact ⟨fun h => by omega, fun _ => rfl⟩
    | error e =>
      rw [hb] at h2
      simp only at h2 ⊢
      intro h0
      by_cases hl : szA a ≤ lim
      · rw [(h3 h0).1 hl]
        exact h2 hl
      · rw [(h3 h0).2 (by omega)]
        exact Or.inr rfl

theorem Cut.same {sz : α → Nat} {m : M α} (h : ∀ r, m = .ok r → sz r = s0) : Cut lim s0 sz m m := by
  unfold Cut
  cases m with
  | ok r =>
    have := h r rfl
    simp only
    exact ⟨by omega, fun _ => ⟨fun _ => trivial, fun _ => by omega⟩⟩
  | error e => exact fun _ => Or.inl rfl

/-- a step that does not concern the buffer -/
theorem Cut.skip {szB : β → Nat} {m : M α} {f f' : α → M β} (hf : ∀ a, m = .ok a → Cut lim s0 szB (f a) (f' a)) :
    Cut lim s0 szB (m >>= f) (m >>= f') :=
  Cut.bind (szA := fun _ => s0) (Cut.same (fun _ _ => rfl)) hf

theorem Cut.ite {sz : α → Nat} {c : Prop} [Decidable c] {a b a' b' : M α} (h1 : c → Cut lim s0 sz a a')
    (h2 : ¬ c → Cut lim s0 sz b b') : Cut lim s0 sz (if c then a else b) (if c then a' else b') := by
  split
  · exact h1 (by assumption)
  · exact h2 (by assumption)

theorem Cut.loopDown {sz : σ → Nat} {f f' : Nat → σ → M σ} (hf : ∀ i s, Cut lim (sz s) sz (f i s) (f' i s)) :
    ∀ (k : Nat) (s : σ), Cut lim (sz s) sz (Flbwt.loopDown k s f) (Flbwt.loopDown k s f') := by
  intro k
  induction k with
  | zero => intro s; exact Cut.same (fun r h => by cases h; rfl)
  | succ k ih =>
    intro s
    simp only [Flbwt.loopDown]
    exact (hf k s).bind (fun a _ => ih a)

theorem Cut.realloc {b : Nat → Nat} {L : Nat} (hL : lim ≤ L) {buf : Mem Nat} {k : Nat} (h0 : s0 ≤ k) :
    Cut lim s0 (fun m => m.size) (reallocBytes ⟨b, L⟩ buf k) (reallocBytes ⟨b, lim⟩ buf k) := by
  unfold Cut reallocBytes
  by_cases h : k < 2 ^ 63 ∧ k ≤ L
  · rw [if_pos h]
    simp only
    refine ⟨h0, fun _ => ⟨fun hl => ?_, fun hl => ?_⟩⟩
    · rw [if_pos ⟨h.1, hl⟩]
    · rw [if_neg (fun h => absurd h.2 (Nat.not_le.2 hl))]
  · rw [if_neg h, if_neg (fun h' => h ⟨h'.1, Nat.le_trans h'.2 hL⟩)]
    exact fun _ => Or.inl rfl

end

namespace HashTable

theorem linkBlock_bufsize {ht ht' : HashTable} {h q q2 : Nat} {r : Option Nat} (e : linkBlock ht h q r q2 = .ok ht') :
    ht'.bufsize = ht.bufsize := by
  unfold linkBlock at e
  split at e
  · cases hh : ht.head.wr h q2 with
    | ok a => rw [hh, ok_bind] at e; cases e; rfl
    | error x => rw [hh] at e; cases e
  · cases r with
    | none => cases e
    | some pp =>
      simp only at e
      cases hh : setPointer ht.buf pp q2 with
      | ok a => rw [hh, ok_bind] at e; cases e; rfl
      | error x => rw [hh] at e; cases e

variable {lim L : Nat} {b : Nat → Nat}

theorem makeRoom_cut (hL : lim ≤ L) (ht : HashTable) (h q : Nat) (r : Option Nat) (space : Nat) :
    Cut lim ht.bufsize (fun x => x.1.bufsize) (makeRoom ⟨b, L⟩ ht h q r space) (makeRoom ⟨b, lim⟩ ht h q r space) := by
  unfold makeRoom
  refine Cut.skip (fun rest _ => Cut.skip (fun lim _ => Cut.ite (fun _ => ?_) (fun _ => ?_)))
  · refine (Cut.realloc hL (by omega)).bind (fun buf hb => ?_)
    have hbs : buf.size = ht.bufsize + ht.hbsize + space := by
      unfold reallocBytes at hb
      split at hb
      · cases hb; rfl
      · cases hb
    refine Cut.skip (fun rest' _ => ?_)
    simp only
    refine Cut.skip (fun ht' hh => Cut.same (fun x hx => ?_))
    cases hx
    simp only
    rw [linkBlock_bufsize hh]
    simp only
    omega
  · cases r with
    | none => exact Cut.same (fun _ h => by cases h)
    | some r => exact Cut.same (fun _ h => by cases h; rfl)

theorem insertString_cut (hL : lim ≤ L) (ht : HashTable) (T : Mem Nat) (m p : Nat) :
    Cut lim ht.bufsize (fun x => x.1.bufsize) (insertString ⟨b, L⟩ ht T m p) (insertString ⟨b, lim⟩ ht T m p) := by
  unfold insertString
  refine Cut.skip (fun h _ => Cut.skip (fun q _ => Cut.skip (fun e _ => ?_)))
  cases e with
  | dup coll => exact Cut.same (fun _ h => by cases h; rfl)
  | free q r coll =>
    simp only
    refine Cut.skip (fun lb _ => ?_)
    refine (makeRoom_cut hL { ht with collisions := coll } h q r _).bind (fun x _ => ?_)
    refine Cut.skip (fun buf _ => Cut.skip (fun rest _ => Cut.skip (fun rest' _ => Cut.same (fun y hy => ?_))))
    cases hy
    rfl

end HashTable

section
variable {lim L : Nat} {b : Nat → Nat}

theorem exFound_cut (hL : lim ≤ L) (T : Mem Nat) (i : Nat) (s : ExSt) :
    Cut lim s.ht.bufsize (fun s : ExSt => s.ht.bufsize) (exFound ⟨b, L⟩ T i s) (exFound ⟨b, lim⟩ T i s) := by
  unfold exFound
  refine Cut.skip (fun c _ => Cut.skip (fun C _ => ?_))
  refine (HashTable.insertString_cut hL s.ht T _ _).bind (fun x _ => Cut.same (fun y hy => ?_))
  cases hy
  rfl

theorem exStep_cut (hL : lim ≤ L) (T : Mem Nat) (i : Nat) (s : ExSt) :
    Cut lim s.ht.bufsize (fun s : ExSt => s.ht.bufsize) (exStep ⟨b, L⟩ T i s) (exStep ⟨b, lim⟩ T i s) := by
  unfold exStep
  refine Cut.skip (fun a _ => Cut.skip (fun c _ => Cut.skip (fun M _ => ?_)))
  refine Cut.ite (fun _ => Cut.same (fun y hy => by cases hy; rfl)) (fun _ => ?_)
  refine Cut.ite (fun _ => ?_) (fun _ => ?_)
  · refine Cut.bind (szA := fun s : ExSt => s.ht.bufsize) ?_ (fun s' _ => ?_)
    · unfold exMaybe
      refine Cut.ite (fun _ => ?_) (fun _ => Cut.same (fun y hy => by cases hy; rfl))
      exact exFound_cut hL T i { s with M := M }
    · refine Cut.skip (fun NL _ => Cut.same (fun y hy => by cases hy; rfl))
  · refine Cut.same (fun y hy => ?_)
    split at hy
    · cases hN : bump s.NL (a + 1) with
      | ok x => rw [hN, ok_bind] at hy; cases hy; rfl
      | error e => rw [hN] at hy; cases hy
    · cases hy; rfl

/-- the size of the buffer of the table of a container -/
def tableBytes (ct : Container) : Nat :=
  match ct.hashtable with
  | none => 0
  | some ht => ht.bufsize

theorem extractLMS_cut (hL : lim ≤ L) (T : Mem Nat) (n : Nat) :
    Cut lim 0 tableBytes (extractLMS ⟨b, L⟩ T n) (extractLMS ⟨b, lim⟩ T n) := by
  unfold extractLMS
  simp only
  refine Cut.ite (fun _ => Cut.same (fun y hy => by cases hy; rfl)) (fun _ => ?_)
  refine Cut.skip (fun ht hh => ?_)
  have h0 : ht.bufsize = 0 := by
    unfold HashTable.new at hh
    cases hp : positionOfMsb (n / 2 + 1) with
    | ok x => simp only [hp, ok_bind] at hh; cases hh; rfl
    | error e => simp only [hp] at hh; cases hh
  refine Cut.skip (fun M _ => Cut.skip (fun c _ => Cut.skip (fun M' _ => Cut.skip (fun NL _ => Cut.skip (fun C _ => ?_)))))
  have := Cut.loopDown (lim := lim) (sz := fun s : ExSt => s.ht.bufsize) (fun i s => exStep_cut (b := b) hL T i s) (n - 1)
    (⟨M', NL, C, ht, 0, 0, TYPE_L, n, n⟩ : ExSt)
  simp only [h0] at this
  refine this.bind (fun s _ => Cut.same (fun y hy => ?_))
  cases hy
  rfl

theorem sortLMS_cut (hL : lim ≤ L) (sorter : Sorter) (pj : Nat → Nat) (T : Mem Nat) (ct : Container) :
    Cut lim (tableBytes ct) (fun r => tableBytes r.2) (sortLMS sorter pj ⟨b, L⟩ T ct) (sortLMS sorter pj ⟨b, lim⟩ T ct) := by
  unfold sortLMS
  cases hc : ct.hashtable with
  | none => exact Cut.same (fun _ h => by cases h)
  | some ht =>
    simp only [tableBytes, hc]
    refine Cut.bind (szA := fun r => r.1.bufsize) ?_ (fun r hr => ?_)
    · unfold sortNames
      simp only
      refine Cut.skip (fun ll _ => ?_)
      refine (Cut.realloc hL (by omega)).bind (fun buf hb => ?_)
      have hbs : buf.size = ht.bufsize + (1 + 1 + ll + (ct.headEnd + 1) + ht.nameBytes + (1 + 1 + 1 + 1 + ht.nameBytes)) := by
        unfold reallocBytes at hb
        split at hb
        · cases hb; rfl
        · cases hb
      refine Cut.skip (fun x _ => Cut.skip (fun l _ => Cut.skip (fun l' _ => Cut.skip (fun s _ => Cut.skip (fun buf' _ => ?_)))))
      refine Cut.same (fun y hy => ?_)
      cases hy
      exact hbs.symm
    · refine Cut.same (fun y hy => ?_)
      unfold sortHead at hy
      obtain ⟨y1, y2⟩ := y
      revert hy
      cases Mem.wr r.2 (ct.numUnique + 1) ht.bufsize with
      | error e => intro hy; cases hy
      | ok s =>
      rw [ok_bind]
      cases writeHead r.1.nameBytes T ct.headEnd ct.numUnique r.1.buf ht.bufsize with
      | error e => intro hy; cases hy
      | ok h =>
      rw [ok_bind]
      cases Mem.wr s 0 h.2.2 with
      | error e => intro hy; cases hy
      | ok s' =>
      rw [ok_bind]
      cases writeEnd r.1.nameBytes h.1 h.2.2 with
      | error e => intro hy; cases hy
      | ok buf =>
      rw [ok_bind]
      cases minMax s' ct.numUnique with
      | error e => intro hy; cases hy
      | ok mm =>
      rw [ok_bind]
      cases positionOfMsb (subU64 mm.2 mm.1 + 2) with
      | error e => intro hy; cases hy
      | ok wd =>
      rw [ok_bind]
      cases HashTable.getLength buf mm.2 with
      | error e => intro hy; cases hy
      | ok l =>
      rw [ok_bind]
      cases HashTable.getFirstCharacterPointer buf mm.2 with
      | error e => intro hy; cases hy
      | ok fc =>
      rw [ok_bind]
      intro hy
      cases hy
      rfl

end

/-- The same world with a heap that can provide at most `lim` bytes for the buffer of the table. -/
def World.limited (w : World) (lim : Nat) : World := { w with junk := ⟨w.junk.byte, lim⟩ }

/-- The part of `bwt_is` that uses the memory of the table, and the rest. -/
theorem bwtIs_split (w : World) (T : Mem Nat) (n : Nat) (freeT : Bool) (l : Nat) : bwtIs (w.limited l) T n freeT =
    (extractLMS ⟨w.junk.byte, l⟩ T n >>= fun ct => sortLMS w.sorter w.pj ⟨w.junk.byte, l⟩ T ct) >>= (fun r => do
      let T1 ← createShortened w.tj w.sj T n r.2
      let b ← finish w r.1 T1 r.2
      .ok (b, release freeT T)) := by
  unfold bwtIs
  rw [bind_assoc]
  rfl

theorem front_cut (w : World) {lim L : Nat} (h : lim ≤ L) (T : Mem Nat) (n : Nat) : Cut lim 0 (fun r => tableBytes r.2)
    (extractLMS ⟨w.junk.byte, L⟩ T n >>= fun ct => sortLMS w.sorter w.pj ⟨w.junk.byte, L⟩ T ct)
    (extractLMS ⟨w.junk.byte, lim⟩ T n >>= fun ct => sortLMS w.sorter w.pj ⟨w.junk.byte, lim⟩ T ct) :=
  (extractLMS_cut h T n).bind (fun ct _ => sortLMS_cut h w.sorter w.pj T ct)

/-- **C46** Running out of memory for the table, for every call whatsoever: with less memory the call ends exactly as with
more memory or dereferences a null pointer; in particular it never gives a different result and never throws. -/
theorem C46_same_or_null (w : World) (lim lim' : Nat) (h : lim ≤ lim') (T : Option (Mem Nat)) (n : Nat) (freeT : Bool) :
    bwtString (w.limited lim) T n freeT = bwtString (w.limited lim') T n freeT ∨
    bwtString (w.limited lim) T n freeT = .error (.ub .nullDeref) := by
  cases T with
  | none => exact Or.inl rfl
  | some T =>
    simp only [bwtString]
    by_cases hn : n = 0
    · rw [if_pos hn, if_pos hn]; exact Or.inl rfl
    rw [if_neg hn, if_neg hn]
    have key := front_cut w h T n
    rw [bwtIs_split, bwtIs_split]
    unfold Cut at key
    cases hf : (extractLMS ⟨w.junk.byte, lim'⟩ T n >>= fun ct => sortLMS w.sorter w.pj ⟨w.junk.byte, lim'⟩ T ct) with
    | ok r =>
      rw [hf] at key
      simp only at key
      by_cases hs : tableBytes r.2 ≤ lim
      · rw [(key.2 (by omega)).1 hs]; exact Or.inl rfl
      · rw [(key.2 (by omega)).2 (by omega)]; exact Or.inr rfl
    | error e =>
      rw [hf] at key
      rcases key (by omega) with h | h <;> rw [h]
      · exact Or.inl rfl
      · exact Or.inr rfl

/-- **C46** The exact amount of memory: for every good call there is a number `B ≤ 27·n + 34701855`, the final size of the
buffer of the table, such that the call gives the transform if the heap can provide a block of `B` bytes and dereferences a
null pointer if it cannot. -/
theorem C46_memory_threshold (w : World) {T : Mem Nat} {s : List Nat} (g : GoodCall w.junk w.sorter T s) (freeT : Bool) :
    ∃ B r T', 7 ≤ B ∧ B ≤ 27 * s.length + 34701855 ∧ IsBWT s r.bwt.data r.last ∧
      (∀ lim, B ≤ lim → bwtString (w.limited lim) (some T) s.length freeT = .ok (some r, T')) ∧
      (∀ lim, lim < B → bwtString (w.limited lim) (some T) s.length freeT = .error (.ub .nullDeref)) := by
  obtain ⟨ct0, e1, ht0, X⟩ := Tot_iff.1 (extractLMS_spec g.inp g.len.lms)
  obtain ⟨⟨p, ct⟩, e2, ht, str, H⟩ := Tot_iff.1 (sortLMS_spec g.inp g.len g.sort w.pj X)
  obtain ⟨r, e, _, hr⟩ := bwtString_good w g freeT
  have h3 := g.len3
  have hcap := H.cap
  have hB : tableBytes ct = ht.bufsize := by
    have := H.htab
    simp only at this
    simp only [tableBytes, this]
  have hfront : (extractLMS ⟨w.junk.byte, w.junk.lim⟩ T s.length >>= fun ct =>
      sortLMS w.sorter w.pj ⟨w.junk.byte, w.junk.lim⟩ T ct) = .ok (p, ct) := by
    show (extractLMS w.junk T s.length >>= fun ct => sortLMS w.sorter w.pj w.junk T ct) = _
    rw [e1, ok_bind, e2]
  have hrun : bwtString w (some T) s.length freeT = bwtString (w.limited w.junk.lim) (some T) s.length freeT := rfl
  rw [hrun] at e
  simp only [bwtString] at e ⊢
  rw [if_neg (by omega), bwtIs_split, hfront] at e
  have hlarge : tableBytes ct ≤ w.junk.lim := by
    have := g.room
    unfold enoughFor at this
    rw [hB]
    omega
  refine ⟨tableBytes ct, r, release freeT T, ?_, by rw [hB]; omega, hr, ?_, ?_⟩
  · have h1 := H.hend
    have h2 := H.fsz
    unfold HashTable.bodyLen at h1
    rw [HashTable.substr_length] at h1
    rw [hB]
    omega
  · intro lim hlim
    rw [if_neg (by omega), bwtIs_split]
    rcases Nat.le_total lim w.junk.lim with h | h
    · have key := front_cut w h T s.length
      rw [hfront] at key
      unfold Cut at key
      simp only at key
      rw [(key.2 (by omega)).1 hlim]
      exact e
    · have key := front_cut w h T s.length
      rw [hfront] at key
      unfold Cut at key
      cases hf : (extractLMS ⟨w.junk.byte, lim⟩ T s.length >>= fun ct => sortLMS w.sorter w.pj ⟨w.junk.byte, lim⟩ T ct) with
      | error x =>
        rw [hf] at key
        rcases key (by omega) with k | k <;> cases k
      | ok y =>
        rw [hf] at key
        simp only at key
        by_cases hy : tableBytes y.2 ≤ w.junk.lim
        · have := (key.2 (by omega)).1 hy
          cases this
          exact e
        · have := (key.2 (by omega)).2 (by omega)
          cases this
  · intro lim hlim
    have key := front_cut w (show lim ≤ w.junk.lim by omega) T s.length
    rw [hfront] at key
    unfold Cut at key
    simp only at key
    rw [if_neg (by omega), bwtIs_split, (key.2 (by omega)).2 hlim]
    rfl

/-- The hypotheses of `C46_memory_threshold` hold for "banana" in any world whose fresh memory and `std::sort` are those of
`banana_good`. -/
example (w : World) (hj : w.junk = ⟨fun i => 2 * i + 1, 40000000⟩) (hs : w.sorter = insSort) :
    ∃ B r T', 7 ≤ B ∧ B ≤ 27 * 6 + 34701855 ∧ IsBWT banana r.bwt.data r.last ∧
      (∀ lim, B ≤ lim → bwtString (w.limited lim) (some (cString banana)) 6 true = .ok (some r, T')) ∧
      (∀ lim, lim < B → bwtString (w.limited lim) (some (cString banana)) 6 true = .error (.ub .nullDeref)) :=
  C46_memory_threshold w (s := banana) (hj ▸ hs ▸ banana_good) true

end Flbwt
