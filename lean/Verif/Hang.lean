import Verif.DirtyIns

/-!
# A table whose walk does not end (used by C94)

The only S* substring has a length that is a multiple of 256. The last byte of its stored length is an old byte, so that the walk
over its bucket leaves the record at a place of the block that was never written; the old bytes there look like a pointer to
themselves.
-/

namespace Flbwt

open HashTable (ok_bind nb nb_le8 nb_pos LenAt PtrAt getLength getLength_eq getPointer_eq hashL substr)

/-! ## The programs with any number of steps for the walk -/

/-- `HashTable.collect` (src/flbwt.cpp:400-419) with `k` steps more for the walk over a bucket: the model gives each walk as many
steps as the buffer has bytes (and two more), which is enough when it ends. -/
def HashTable.collectFor (k : Nat) (ht : HashTable) (s : Mem Nat) (j : Nat) : M (Mem Nat × Nat) :=
  loopUp 0 ht.htsize (s, j) fun i st => do
    let p ← ht.head.rd i
    whileM (ht.buf.size + 2 + k) (p, st.1, st.2) (HashTable.collectStep ht.nameBytes ht.buf)

/-- `sortNames` (src/flbwt.cpp:383-462) with `k` steps more for the walk. -/
def sortNamesFor (k : Nat) (sorter : Sorter) (pj : Nat → Nat) (junk : Fresh) (ct : Container) (ht : HashTable) : M (HashTable × Mem Nat) := do
  let s : Mem Nat := ⟨ct.numUnique + 2, pj⟩
  let ll ← HashTable.calculateLenlen (ct.headEnd + 1)
  let space := 1 + 1 + ll + (ct.headEnd + 1) + ht.nameBytes + (1 + 1 + 1 + 1 + ht.nameBytes)
  let buf ← reallocBytes junk ht.buf (ht.bufsize + space)
  let ht := { ht with buf := buf, bufsize := ht.bufsize + space }
  let r ← HashTable.collectFor k ht s 1
  let m := subU64 r.2 1
  let l ← readRange r.1 m
  let l ← sorter (lmsCompare ht.buf) l
  let s ← writeRange r.1 l
  let buf ← setNamesLoop ht.nameBytes s m ht.buf
  .ok ({ ht with buf := buf }, s)

/-- `sortLMS` (src/flbwt.cpp:381-507) with `k` steps more for the walk. -/
def sortLMSFor (k : Nat) (sorter : Sorter) (pj : Nat → Nat) (junk : Fresh) (T : Mem Nat) (ct : Container) : M (Mem Nat × Container) := do
  match ct.hashtable with
  | none => .error (.ub .nullDeref)
  | some ht => do
    let r ← sortNamesFor k sorter pj junk ct ht
    sortHead T ct ht.bufsize r.1 r.2

/-- `bwtString` (src/flbwt.cpp:110-313) with `k` steps more for the walk over a bucket of the table. -/
def bwtStringFor (k : Nat) (w : World) (T : Option (Mem Nat)) (n : Nat) (freeT : Bool) : M (Option BwtResult × Option (Mem Nat)) :=
  match T with
  | none => .error (.throw .invalidArgument)
  | some T => if n = 0 then .error (.throw .invalidArgument) else do
    let ct ← extractLMS w.junk T n
    let r ← sortLMSFor k w.sorter w.pj w.junk T ct
    let T1 ← createShortened w.tj w.sj T n r.2
    let T := release freeT T
    let b ← finish w r.1 T1 r.2
    .ok (b, T)

theorem bwtStringFor_zero (w : World) (T : Option (Mem Nat)) (n : Nat) (freeT : Bool) :
    bwtStringFor 0 w T n freeT = bwtString w T n freeT := rfl

/-- More steps do not change a walk that ends. -/
theorem collectFor_ok {k : Nat} {ht : HashTable} {s : Mem Nat} {j : Nat} {r : Mem Nat × Nat} (h : HashTable.collect ht s j = .ok r) :
    HashTable.collectFor k ht s j = .ok r := by
  unfold HashTable.collect at h
  unfold HashTable.collectFor
  have key : ∀ (cnt lo : Nat) (st : Mem Nat × Nat), loopUp lo cnt st (fun i st => do
      let p ← ht.head.rd i
      whileM (ht.buf.size + 2) (p, st.1, st.2) (HashTable.collectStep ht.nameBytes ht.buf)) = .ok r →
      loopUp lo cnt st (fun i st => do
      let p ← ht.head.rd i
      whileM (ht.buf.size + 2 + k) (p, st.1, st.2) (HashTable.collectStep ht.nameBytes ht.buf)) = .ok r := by
    intro cnt
    induction cnt with
    | zero => intro lo st h; exact h
    | succ cnt ih =>
      intro lo st h
      rw [loopUp] at h ⊢
      obtain ⟨st', h1, h2⟩ := bind_ok_inv h
      obtain ⟨p, h3, h4⟩ := bind_ok_inv h1
      rw [h3, ok_bind, whileM_fuel_mono _ _ _ _ _ h4 (by omega), ok_bind]
      exact ih _ _ h2
  exact key _ _ _ h

/-! ## The table -/

/-- Old bytes: a pointer to itself at offset `L`, 13 at offset `x`, zeros elsewhere. Used in proofs only. -/
def hangBytes (x L lim : Nat) : Fresh :=
  ⟨fun i => if i = L then 1 else if i = L + 1 then 2 else if L + 2 ≤ i ∧ i < L + 10 then L / 256 ^ (7 - (i - (L + 2))) % 256
    else if i = x then 13 else 0, lim⟩

theorem hangBytes_ptr {x L lim : Nat} {buf : Mem Nat} (h : ∀ i, L ≤ i → i < L + 10 → buf.data i = hangBytes x L lim i % 256) : PtrAt buf L L := by
  refine ⟨?_, ?_, ?_⟩
  · rw [h L (by omega) (by omega)]
    show (if L = L then 1 else _) % 256 = 1
    rw [if_pos rfl]
  · rw [h (L + 1) (by omega) (by omega)]
    show (if L + 1 = L then 1 else if L + 1 = L + 1 then 2 else _) % 256 = 2
    rw [if_neg (by omega), if_pos rfl]
  · intro j hj
    rw [h (L + 2 + j) (by omega) (by omega)]
    show (if L + 2 + j = L then 1 else if L + 2 + j = L + 1 then 2 else if _ then L / 256 ^ (7 - (L + 2 + j - (L + 2))) % 256 else _) % 256 = _
    rw [if_neg (by omega), if_neg (by omega), if_pos (by omega), show L + 2 + j - (L + 2) = j by omega, show 8 - 1 - j = 7 - j by omega,
      Nat.mod_mod]

/-- A table with one record, at offset 1 in bucket `h`, behind which the walk finds a pointer to itself. Used in proofs only. -/
structure OneLoop (ht : HashTable) (NB h m : Nat) : Prop where
  hts : ht.htsize = 67777
  hlt : h < 67777
  nbs : ht.nameBytes = NB
  headsz : ht.head.size = 67777
  head : ht.head.data h = 1
  heads : ∀ k, k < 67777 → k ≠ h → ht.head.data k = 0
  bufsz : ht.buf.size = ht.bufsize
  small : ht.bufsize < 2 ^ 62
  big : 3 + nb m + m + NB + 13 + 10 ≤ ht.bufsize
  len : LenAt ht.buf 1 (m + 13)
  ptr : PtrAt ht.buf (3 + nb m + m + NB + 13) (3 + nb m + m + NB + 13)

theorem insert_hang {junk : Fresh} {ht : HashTable} {T : Mem Nat} {m p : Nat} (h1 : ht.htsize = 67777) (h2 : ht.hbsize = 512)
    (h3 : ht.rest.size = 67777) (h4 : ht.head.size = 67777) (h5 : ht.buf.size = 0) (h6 : ht.bufsize = 0)
    (h7 : ∀ k, ht.head.data k = 0) (h8 : ∀ k, k < 67777 → ht.rest.data k = 0) (h9 : ht.nameBytes ≤ 8)
    (hT : p + m ≤ T.size) (hm1 : 3 ≤ m) (hm62 : m < 2 ^ 60) (hroom : m + 600 ≤ junk.lim) (hm : m % 256 = 0)
    (hj : ∀ i, junk i = hangBytes (1 + nb m) (3 + nb m + m + ht.nameBytes + 13) junk.lim i) :
    Tot (HashTable.insertString junk ht T m p) (fun r => r.2 = 1 ∧ OneLoop r.1 ht.nameBytes (hashL 67777 (substr T p m)) m ∧
      r.1.bufsize = 514 + nb m + m + ht.nameBytes ∧ nb (m + 13) = nb m) := by
  have hn8 := nb_le8 (show 1 ≤ m by omega) (show m < 2 ^ 64 by omega)
  have hnp := nb_pos m
  have hx : junk (1 + nb m) % 256 = 13 := by
    rw [hj]
    show (if _ then _ else if _ then _ else if _ then _ else if _ then 13 else 0) % 256 = 13
    rw [if_neg (by omega), if_neg (by omega), if_neg (by omega), if_pos rfl]
  have hz : ∀ i, i < 1 + nb m → junk i % 256 = 0 := by
    intro i hi
    rw [hj]
    show (if _ then _ else if _ then _ else if _ then _ else if _ then 13 else 0) % 256 = 0
    rw [if_neg (by omega), if_neg (by omega), if_neg (by omega), if_neg (by omega)]
  unfold HashTable.insertString
  rw [HashTable.hashFunction_eq _ _ _ _ (by omega) hT, ok_bind, h1]
  have hlt : hashL 67777 (substr T p m) < 67777 := HashTable.hashL_lt (by omega) _
  generalize hashL 67777 (substr T p m) = h at *
  rw [Mem.rd_ok _ (by omega), ok_bind, h7, h6]
  have e : whileM (0 + 2) (0, none, ht.collisions) (HashTable.insertStep ht.nameBytes ht.buf T m p) =
      .ok (.free 0 none ht.collisions) := by
    simp only [whileM, HashTable.insertStep, if_neg (show ¬ (0 : Nat) ≠ 0 by omega), ok_bind]
  rw [e, ok_bind]
  simp only
  rw [HashTable.calculateLenlen_eq (by omega) (by omega), ok_bind]
  unfold HashTable.spaceRequired HashTable.makeRoom
  simp only
  obtain ⟨sp, hsp⟩ : ∃ sp, sp = 1 + 1 + nb m + m + ht.nameBytes := ⟨_, rfl⟩
  rw [← hsp, Mem.rd_ok _ (by omega), ok_bind, h8 h hlt]
  have hlim : HashTable.spaceLimit 0 = .ok (-12) := by
    unfold HashTable.spaceLimit
    rw [toI64_eq (by omega), addI64_ok (by omega) (by omega)]; rfl
  rw [hlim, ok_bind, toI64_eq (by omega), if_pos (by omega), h2]
  unfold reallocBytes
  rw [if_pos (by constructor <;> omega), ok_bind, Mem.wr_ok _ _ (by omega), ok_bind]
  unfold HashTable.linkBlock
  rw [if_pos (by rfl)]
  simp only
  rw [Mem.wr_ok _ _ (by omega), ok_bind, ok_bind, ok_bind]
  simp only
  refine Tot.bind (HashTable.writeRecord_dirty (x := 13) ht.nameBytes (0 + 1) hT (by omega) (by omega) (by simp only; omega) hm
    (Or.inr (fun i i1 i2 => by
      simp only
      rw [h5, if_neg (by omega)]; exact hz i (by omega))) (by omega) (by
    simp only
    rw [h5, if_neg (by omega), Nat.zero_add]; exact hx)) ?_
  rintro b ⟨b1, b2, b3, b4⟩
  simp only at b1
  rw [Mem.rd_ok _ (by simp only [Mem.upd_size]; omega), ok_bind, Mem.wr_ok _ _ (by simp only [Mem.upd_size]; omega), ok_bind, Tot_ok]
  refine ⟨rfl, ⟨rfl, hlt, rfl, by simp only [Mem.upd_size]; omega, by simp, ?_, by simp only; omega, by simp only; omega, by simp only; omega, b2, ?_⟩, by simp only; omega, b3⟩
  · intro k _ hk
    simp only
    rw [Mem.upd_data_ne _ _ hk]; exact h7 k
  · refine hangBytes_ptr (x := 1 + nb m) (lim := junk.lim) ?_
    intro i i1 i2
    rw [← hj i]
    show b.data i = _
    rw [b4 i (by omega)]
    simp only
    rw [h5, if_neg (by omega)]

/-- The bytes left in the memory do not end: `extract_LMS_strings` on a text with one S* position. -/
theorem extract_hang {T : Mem Nat} {n p : Nat} (I : Input T n) {junk : Fresh} (hp : isLMS T.data n p)
    (huniq : ∀ q, isLMS T.data n q → q = p) (hroom : enoughFor n ≤ junk.lim) (hm : (n - p + 1) % 256 = 0)
    (hj : ∀ NB i, NB = nb (n / 2 + 1) → junk i = hangBytes (1 + nb (n - p + 1)) (3 + nb (n - p + 1) + (n - p + 1) + NB + 13) junk.lim i) :
    Tot (extractLMS junk T n) (fun ct => ∃ ht, ct.hashtable = some ht ∧ ct.numSubs = 1 ∧ ct.numUnique = 1 ∧ ct.headEnd = p ∧
      ht.nameBytes ≤ 8 ∧ OneLoop ht ht.nameBytes (hashL 67777 (substr T p (n - p + 1))) (n - p + 1) ∧
      ht.bufsize = 514 + nb (n - p + 1) + (n - p + 1) + ht.nameBytes ∧ nb (n - p + 1 + 13) = nb (n - p + 1)) := by
  have hn := I.nlt
  have hn3 := I.n3
  have hsz := I.size
  have hpn := hp.2.1
  have hbn := I.byte (n - 1) (by omega)
  obtain ⟨H0, e0, t0, hh1, hh2, hh3, hh4, _, hh5, hh6⟩ := Tot_iff.1 (HashTable.new_tab 67777 n (by omega) (by omega))
  have hr0 : ∀ k, k < 67777 → H0.rest.data k = 0 := fun k hk => (t0.empty k (by omega) (hh4 k)).2
  have hr1 := t0.restsz
  have hr2 := t0.headsz
  have hNB : H0.nameBytes = nb (n / 2 + 1) := by
    obtain ⟨H1, _, _, _, _, e1, _, _, _, _, _, X⟩ := extract_start I
    have : H1 = H0 := by rw [e0] at e1; injection e1 with h; exact h.symm
    subst this
    obtain ⟨_, _, _, _, _, _, hr6, _⟩ := X.ht
    exact hr6
  unfold enoughFor at hroom
  have hins := insert_hang (junk := junk) (ht := H0) (T := T) (m := n - p + 1) (p := p) hh1 t0.hb (by omega) (by omega)
    hh3 hh2 hh4 hr0 hh6 (by omega) (by omega) (by omega) (by omega) hm (fun i => hj _ i hNB)
  unfold extractLMS
  rw [if_neg (by omega), e0, ok_bind]
  refine Tot.bind (bump_size_ok (show 0 < 258 by omega)) (fun M1 hM1 => ?_)
  rw [Mem.rd_ok _ (by omega), ok_bind]
  have z1 : (Container.new n).M.size = 258 := rfl
  have z2 : (Container.new n).NL.size = 258 := rfl
  have z3 : (Container.new n).C.size = 258 := rfl
  refine Tot.bind (bump_size_ok (by omega)) (fun M2 hM2 => ?_)
  refine Tot.bind (bump_size_ok (by omega)) (fun NL1 hNL1 => ?_)
  refine Tot.bind (bump_size_ok (by omega)) (fun C1 hC1 => ?_)
  refine Tot.bind (loopDown_spec (OneInv T.data n p H0 (fun ht => OneLoop ht H0.nameBytes (hashL 67777 (substr T p (n - p + 1))) (n - p + 1) ∧
    ht.bufsize = 514 + nb (n - p + 1) + (n - p + 1) + H0.nameBytes ∧ nb (n - p + 1 + 13) = nb (n - p + 1))) (n - 1) _ _
    ⟨by simp only; omega, by simp only; omega, by simp only; omega,
    by rw [isS_last (by omega)]; rfl, Or.inl ⟨by omega, rfl, rfl, rfl, rfl⟩⟩
    (fun i s h1 h2 => exStep_last I hp huniq hins (by omega) h2)) ?_
  intro s g
  have hp0 := hp.1
  obtain ⟨_, a2, a3, a4, a5⟩ : 0 < p ∧ s.p = p ∧ (OneLoop s.ht H0.nameBytes _ _ ∧ _) ∧ s.numSubs = 1 ∧ s.numUnique = 1 := by
    rcases g.st with a | a
    · omega
    · exact a
  rw [Tot_ok]
  have hnbs := a3.1.nbs
  exact ⟨s.ht, rfl, a4, a5, a2, by omega, by rw [hnbs]; exact a3.1, by rw [hnbs]; exact a3.2.1, a3.2.2⟩

/-! ## The walk -/

/-- A loop whose state does not change. -/
theorem whileM_stuck {σ β : Type} {f : σ → M (σ ⊕ β)} {s : σ} (h : f s = .ok (.inl s)) : ∀ fuel, whileM fuel s f = .error (.ub .diverge) := by
  intro fuel
  induction fuel with
  | zero => rfl
  | succ fuel ih => rw [whileM, h, ok_bind]; exact ih

theorem loopUp_error {σ : Type} {f : Nat → σ → M σ} {e : Err} {s : σ} {i : Nat} : ∀ (cnt lo : Nat), lo ≤ i → i < lo + cnt →
    (∀ k, lo ≤ k → k < i → f k s = .ok s) → f i s = .error e → loopUp lo cnt s f = .error e := by
  intro cnt
  induction cnt with
  | zero => intro lo h1 h2; omega
  | succ cnt ih =>
    intro lo h1 h2 h3 h4
    rw [loopUp]
    by_cases h : lo = i
    · subst h; rw [h4]; rfl
    · rw [h3 lo (Nat.le_refl _) (by omega), ok_bind]
      exact ih (lo + 1) (by omega) (by omega) (fun k k1 k2 => h3 k (by omega) k2) h4

theorem collect_hang (k : Nat) {ht : HashTable} {NB h m : Nat} (B : OneLoop ht NB h m) (hm : 3 ≤ m)
    (hnb : nb (m + 13) = nb m) (hNB : NB ≤ 8) (s : Mem Nat) (hs : s.size = 3) :
    HashTable.collectFor k ht s 1 = .error (.ub .diverge) := by
  have hbig := B.big
  have hsm := B.small
  have hbs := B.bufsz
  have hhl := B.hlt
  have hn8 := nb_le8 (show 1 ≤ m by omega) (show m < 2 ^ 64 by omega)
  unfold HashTable.collectFor
  rw [B.hts]
  have el : getLength ht.buf 1 = .ok (m + 13) := getLength_eq B.len (by omega) (by omega) (by rw [hnb]; omega)
  have ed : HashTable.stringInfoLength ht.nameBytes ht.buf 1 (m + 13) = .ok (2 + nb m + m + NB + 13) := by
    unfold HashTable.stringInfoLength
    rw [Mem.rd_ok _ (by omega), ok_bind, B.len.1, hnb, B.nbs, addU64_eq (show nb m + (m + 13) < 2 ^ 64 by omega),
      addU64_eq (show nb m + (m + 13) + NB < 2 ^ 64 by omega), addU64_eq (by omega)]
    congr 1; omega
  obtain ⟨f, hf⟩ : ∃ f, ht.buf.size + 2 + k = f + 1 := ⟨ht.buf.size + 1 + k, by omega⟩
  refine loopUp_error (i := h) _ _ (by omega) (by omega) ?_ ?_
  · intro i _ hi
    rw [Mem.rd_ok _ (by rw [B.headsz]; omega), ok_bind, B.heads i (by omega) (by omega)]
    rw [hf, whileM]
    simp only [HashTable.collectStep, if_neg (show ¬ (0 : Nat) ≠ 0 by omega), ok_bind]
  · rw [Mem.rd_ok _ (by rw [B.headsz]; omega), ok_bind, B.head]
    rw [hf, whileM]
    have h1 : HashTable.collectStep ht.nameBytes ht.buf (1, s, 1) = .ok (.inl (3 + nb m + m + NB + 13, s.upd 1 1, 2)) := by
      unfold HashTable.collectStep
      dsimp only
      rw [if_pos (by omega), el, ok_bind, if_neg (by omega), if_neg (by omega), Mem.wr_ok _ _ (by omega), ok_bind, ed, ok_bind,
        addU64_eq (by omega), show 1 + (2 + nb m + m + NB + 13) = 3 + nb m + m + NB + 13 by omega]
    rw [h1, ok_bind]
    refine whileM_stuck ?_ f
    unfold HashTable.collectStep
    dsimp only
    rw [if_pos (by omega), B.ptr.getLength (by omega), ok_bind, if_neg (by omega), if_pos (by rfl), getPointer_eq B.ptr (by omega) (by omega), ok_bind]

theorem sort_hang (k : Nat) {T : Mem Nat} {n p m h : Nat} (hpn : p < n) (hn57 : n < 2 ^ 57) {junk : Fresh}
    (hroom : enoughFor n ≤ junk.lim) (sorter : Sorter) (pj : Nat → Nat) {ct : Container} {ht : HashTable} (c1 : ct.hashtable = some ht)
    (c3 : ct.numUnique = 1) (c4 : ct.headEnd = p) (hN8 : ht.nameBytes ≤ 8) (B : OneLoop ht ht.nameBytes h m)
    (hbsz : ht.bufsize = 514 + nb m + m + ht.nameBytes) (hmn : m ≤ n + 1) (hm3 : 3 ≤ m)
    (hnb : nb (m + 13) = nb m) : sortLMSFor k sorter pj junk T ct = .error (.ub .diverge) := by
  have hn8 := nb_le8 (show 1 ≤ m by omega) (show m < 2 ^ 64 by omega)
  have hnp8 := nb_le8 (show 1 ≤ p + 1 by omega) (show p + 1 < 2 ^ 64 by omega)
  unfold enoughFor at hroom
  unfold sortLMSFor
  rw [c1]
  simp only
  unfold sortNamesFor
  simp only
  rw [c3, c4, HashTable.calculateLenlen_eq (by omega) (by omega), ok_bind]
  obtain ⟨space, hspace⟩ : ∃ y, y = 1 + 1 + nb (p + 1) + (p + 1) + ht.nameBytes + (1 + 1 + 1 + 1 + ht.nameBytes) := ⟨_, rfl⟩
  rw [← hspace]
  unfold reallocBytes
  rw [if_pos (by constructor <;> omega), ok_bind]
  have hbs := B.bufsz
  have hbig := B.big
  have hsm := B.small
  obtain ⟨buf1, hbuf1⟩ : ∃ b : Mem Nat, b = ⟨ht.bufsize + space, fun i => if i < ht.buf.size then ht.buf.data i else junk i % 256⟩ := ⟨_, rfl⟩
  rw [← hbuf1]
  have hb1s : buf1.size = ht.bufsize + space := by rw [hbuf1]
  have hb1d : ∀ i, i < ht.bufsize → buf1.data i = ht.buf.data i := by
    intro i hi; rw [hbuf1]; simp only; rw [if_pos (by omega)]
  have B1 : OneLoop { ht with buf := buf1, bufsize := ht.bufsize + space } ht.nameBytes h m :=
    ⟨B.hts, B.hlt, rfl, B.headsz, B.head, B.heads, hb1s, by simp only; omega, by simp only; omega,
      B.len.congr (fun i i1 i2 => hb1d i (by rw [hnb] at i2; omega)), B.ptr.congr (fun i i1 i2 => hb1d i (by omega))⟩
  rw [collect_hang k B1 hm3 hnb hN8 _ rfl]
  rfl

end Flbwt
