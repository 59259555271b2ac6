import Verif.HashTab

/-!
# `insert_string`, `find_name`, `set_name` preserve the table invariant
-/

namespace Flbwt
namespace HashTable

/-- Ghost ownership of buffer bytes: free, part of bucket `h`'s blocks, or name byte of the record at `q`. -/
inductive Tag where
  | none | str (h : Nat) | name (q : Nat)
  deriving DecidableEq

/-- The table `ht` stores in bucket `h` the strings `ents h` (with their offsets, in insertion order), the end
mark of bucket `h` being at `E h`. -/
structure Tab (ht : HashTable) (own : Nat → Tag) (ents : Nat → List (Nat × List Nat)) (E : Nat → Nat) : Prop where
  hts : 0 < ht.htsize
  hb : ht.hbsize = 512
  restsz : ht.rest.size = ht.htsize
  headsz : ht.head.size = ht.htsize
  bufsz : ht.buf.size = ht.bufsize
  small : ht.bufsize < 2 ^ 63
  ownlt : ∀ i, own i ≠ .none → i < ht.bufsize
  empty : ∀ h, h < ht.htsize → ht.head.data h = 0 → ents h = [] ∧ ht.rest.data h = 0
  chain : ∀ h, h < ht.htsize → ht.head.data h ≠ 0 →
    Chain ht.nameBytes ht.buf (fun i => own i = .str h) (fun q i => own i = .name q) (ht.head.data h) (ents h) (E h)
  room : ∀ h, h < ht.htsize → ht.head.data h ≠ 0 → ∃ B, B ≤ ht.bufsize ∧ E h + ht.rest.data h = B + 1 ∧
    E h + 12 ≤ B ∧ ∀ i, E h ≤ i → i < B → own i = .str h
  hash : ∀ h, h < ht.htsize → ∀ x ∈ ents h, hashL ht.htsize x.2 = h
  nodup : ∀ h, h < ht.htsize → ((ents h).map Prod.snd).Nodup

/-- The strings of the table. -/
def Has (ht : HashTable) (ents : Nat → List (Nat × List Nat)) (s : List Nat) : Prop :=
  s ∈ (ents (hashL ht.htsize s)).map Prod.snd

theorem hashL_lt {k : Nat} (h : 0 < k) (s : List Nat) : hashL k s < k := Nat.mod_lt _ h

variable {ht : HashTable} {own : Nat → Tag} {ents : Nat → List (Nat × List Nat)} {E : Nat → Nat}

theorem new_tab_nb (size n : Nat) (h0 : 0 < size) (hn : n < 2 ^ 64) :
    Tot (HashTable.new size n) (fun ht => Tab ht (fun _ => .none) (fun _ => []) (fun _ => 0) ∧ ht.htsize = size ∧
      ht.bufsize = 0 ∧ ht.buf.size = 0 ∧ (∀ h, ht.head.data h = 0) ∧ n / 2 + 1 < 256 ^ ht.nameBytes ∧ 1 ≤ ht.nameBytes ∧ ht.nameBytes ≤ 8 ∧
      ht.nameBytes = nb (n / 2 + 1)) := by
  unfold HashTable.new
  obtain ⟨b, hb, h1, h2, h3, h4⟩ := Tot_iff.1 (positionOfMsb_spec (n / 2 + 1) (by omega) (by omega))
  simp only [hb, ok_bind, Tot_ok]
  refine ⟨⟨h0, rfl, rfl, rfl, rfl, by norm_num, by simp, by simp, by simp, by simp, by simp, by simp⟩, trivial, trivial, trivial, by simp, ?_, ?_, ?_, ?_⟩
  · refine lt_of_lt_of_le h4 ?_
    rw [show (256 : Nat) = 2 ^ 8 by norm_num, ← pow_mul]
    apply Nat.pow_le_pow_right (by norm_num)
    split <;> omega
  · split <;> omega
  · split <;> omega
  · symm
    refine nb_unique (by split <;> omega) ?_ ?_
    · refine le_trans ?_ h3
      rw [show (256 : Nat) = 2 ^ 8 by norm_num, ← pow_mul]
      apply Nat.pow_le_pow_right (by norm_num)
      split <;> omega
    · refine lt_of_lt_of_le h4 ?_
      rw [show (256 : Nat) = 2 ^ 8 by norm_num, ← pow_mul]
      apply Nat.pow_le_pow_right (by norm_num)
      split <;> omega

/-- The same without the value of `nameBytes`. -/
theorem new_tab (size n : Nat) (h0 : 0 < size) (hn : n < 2 ^ 64) :
    Tot (HashTable.new size n) (fun ht => Tab ht (fun _ => .none) (fun _ => []) (fun _ => 0) ∧ ht.htsize = size ∧
      ht.bufsize = 0 ∧ ht.buf.size = 0 ∧ (∀ h, ht.head.data h = 0) ∧ n / 2 + 1 < 256 ^ ht.nameBytes ∧ 1 ≤ ht.nameBytes ∧ ht.nameBytes ≤ 8) :=
  (new_tab_nb size n h0 hn).mono (fun _ ⟨a, b, c, d, e, f, g, h, _⟩ => ⟨a, b, c, d, e, f, g, h⟩)

/-- The bytes still free in the last blocks of the buckets -/
def restSum (ht : HashTable) : Nat := ((List.range ht.htsize).map ht.rest.data).sum

theorem sum_range_upd (f g : Nat → Nat) (h : Nat) (hne : ∀ i, i ≠ h → g i = f i) (k : Nat) (hk : h < k) :
    ((List.range k).map g).sum + f h = ((List.range k).map f).sum + g h := by
  induction k with
  | zero => omega
  | succ k ih =>
    rw [List.range_succ, List.map_append, List.map_append, List.sum_append, List.sum_append]
    simp only [List.map_cons, List.map_nil, List.sum_cons, List.sum_nil, Nat.add_zero]
    by_cases he : h = k
    · subst he
      have : (List.range h).map g = (List.range h).map f := List.map_congr_left (fun i hi => by
        rw [List.mem_range] at hi; exact hne i (by omega))
      rw [this]; omega
    · have := ih (by omega)
      rw [hne k (fun h => he h.symm)]; omega

theorem restSum_le {ht : HashTable} (hr : ∀ h, h < ht.htsize → ht.rest.data h ≤ 512) : restSum ht ≤ 512 * ht.htsize := by
  unfold restSum
  generalize ht.htsize = k at hr
  induction k with
  | zero => simp
  | succ k ih =>
    rw [List.range_succ, List.map_append, List.sum_append]
    have := ih (fun h hh => hr h (by omega))
    have := hr k (by omega)
    simp only [List.map_cons, List.map_nil, List.sum_cons, List.sum_nil, Nat.add_zero]
    omega

/-- The effect of `insert_string` on a new string: everything that was there stays, the record is at `r`. -/
structure Added (ht : HashTable) (own : Nat → Tag) (ents : Nat → List (Nat × List Nat)) (s : List Nat)
    (ht' : HashTable) (own' : Nat → Tag) (ents' : Nat → List (Nat × List Nat)) (r : Nat) : Prop where
  htsize : ht'.htsize = ht.htsize
  nameBytes : ht'.nameBytes = ht.nameBytes
  bufsize : ht.bufsize ≤ ht'.bufsize ∧ ht'.bufsize ≤ ht.bufsize + 512 + (bodyLen s + ht.nameBytes)
  grow : ht'.bufsize + restSum ht ≤ ht.bufsize + restSum ht' + 2 * (bodyLen s + ht.nameBytes) + 12
  used : ht.bufsize + restSum ht' + (bodyLen s + ht.nameBytes) ≤ ht'.bufsize + restSum ht
  rest : (∀ h, h < ht.htsize → ht.rest.data h ≤ 512) → ∀ h, h < ht'.htsize → ht'.rest.data h ≤ 512
  coll : ht.collisions + (ents (hashL ht.htsize s)).length ≤ ht'.collisions
  ents : ents' = fun h => if h = hashL ht.htsize s then ents h ++ [(r, s)] else ents h
  names : ∀ q i, own i = .name q → own' i = .name q ∧ ht'.buf.data i = ht.buf.data i
  others : ∀ h, h ≠ hashL ht.htsize s → ht'.rest.data h = ht.rest.data h
  block : (bodyLen s + ht.nameBytes + 12 < ht.rest.data (hashL ht.htsize s) ∧ ht'.bufsize = ht.bufsize ∧
      ht'.rest.data (hashL ht.htsize s) = ht.rest.data (hashL ht.htsize s) - (bodyLen s + ht.nameBytes)) ∨
    (ht.rest.data (hashL ht.htsize s) ≤ bodyLen s + ht.nameBytes + 12 ∧ ht'.bufsize = ht.bufsize + 512 + (bodyLen s + ht.nameBytes) ∧
      ht'.rest.data (hashL ht.htsize s) = 512)

theorem insertString_fits (t : Tab ht own ents E) (junk : Fresh) (T : Mem Nat) (m p : Nat) (hT : p + m ≤ T.size)
    (hm : 3 ≤ m) (hspace : junk.Room (ht.bufsize + 512 + (bodyLen (substr T p m) + ht.nameBytes)))
    (hj : m % 256 ≠ 0 ∨ (¬ Has ht ents (substr T p m) →
      ht.rest.data (hashL ht.htsize (substr T p m)) ≤ bodyLen (substr T p m) + ht.nameBytes + 12 → ∀ i, ht.bufsize ≤ i → junk i % 256 = 0)) :
    Tot (insertString junk ht T m p) (fun res =>
      (Has ht ents (substr T p m) ∧ res.2 = 0 ∧ ∃ c, ht.collisions ≤ c ∧ res.1 = { ht with collisions := c }) ∨
      (¬ Has ht ents (substr T p m) ∧ res.2 = 1 ∧ ∃ own' ents' E' r, Tab res.1 own' ents' E' ∧
        Added ht own ents (substr T p m) res.1 own' ents' r)) := by
  have hlen := substr_length T p m
  have hbl : bodyLen (substr T p m) = 2 + nb m + m := by unfold bodyLen; rw [hlen]
  have hm64 : m < 2 ^ 64 := by
    rw [hbl] at hspace
    have : (2 : Nat) ^ 63 < 2 ^ 64 := by norm_num
    omega
  have hhl := hashL_lt t.hts (substr T p m)
  unfold insertString
  rw [hashFunction_eq _ _ _ _ t.hts hT, ok_bind]
  unfold Has at hj ⊢
  generalize hs : substr T p m = s at *
  generalize hh : hashL ht.htsize s = h at *
  rw [Mem.rd_ok _ (by rw [t.headsz]; exact hhl), ok_bind, Tot_bind]
  have hlenl := calculateLenlen_eq (by omega : 1 ≤ m) hm64
  have hPs : ∀ h' i, own i = Tag.str h' → i < ht.buf.size := fun h' i hi => by
    rw [t.bufsz]; exact t.ownlt i (by rw [hi]; simp)
  -- the end of the scan
  have scan : Tot (whileM (ht.bufsize + 2) (ht.head.data h, none, ht.collisions) (insertStep ht.nameBytes ht.buf T m p))
      (fun res => (s ∈ (ents h).map Prod.snd ∧ ∃ c, ht.collisions ≤ c ∧ res = .dup c) ∨ (s ∉ (ents h).map Prod.snd ∧
        ((ht.head.data h = 0 ∧ ∃ c, ht.collisions + (ents h).length ≤ c ∧ res = .free 0 none c) ∨
          (ht.head.data h ≠ 0 ∧ ∃ c, ht.collisions + (ents h).length ≤ c ∧ res = .free (E h) (some (E h)) c)))) := by
    by_cases h0 : ht.head.data h = 0
    · rw [h0]
      simp only [whileM, insertStep, if_neg (show ¬ (0 : Nat) ≠ 0 by omega), ok_bind, Tot_ok]
      right
      rw [(t.empty h hhl h0).1]
      exact ⟨by simp, Or.inl ⟨trivial, _, by simp, rfl⟩⟩
    · have := scan_spec hT (hPs h) (by have := t.small; rw [t.bufsz]; omega) (t.chain h hhl h0) (ht.bufsize + 2) none ht.collisions (Or.inl (by rw [t.bufsz]; omega))
      rw [hs] at this
      refine this.mono ?_
      rintro res (⟨a, b⟩ | ⟨a, b⟩)
      · left; exact ⟨a, b⟩
      · right; exact ⟨a, Or.inr ⟨h0, b⟩⟩
  refine scan.mono ?_
  rintro res (⟨hin, c, hc, rfl⟩ | ⟨hnin, hres⟩)
  · left
    exact ⟨hin, rfl, c, hc, rfl⟩
  obtain ⟨q, r0, c, hcoll, hq, hcase⟩ : ∃ q r0 c, ht.collisions + (ents h).length ≤ c ∧ res = .free q r0 c ∧ ((ht.head.data h = 0 ∧ q = 0 ∧ r0 = none) ∨
      (ht.head.data h ≠ 0 ∧ q = E h ∧ r0 = some (E h))) := by
    rcases hres with ⟨a, c, b', b⟩ | ⟨a, c, b', b⟩
    · exact ⟨_, _, c, b', b, Or.inl ⟨a, rfl, rfl⟩⟩
    · exact ⟨_, _, c, b', b, Or.inr ⟨a, rfl, rfl⟩⟩
  subst hq
  simp only [hlenl, ok_bind]
  -- the space
  unfold spaceRequired
  generalize hsp : 1 + 1 + nb m + m + ht.nameBytes = space
  have hspb : bodyLen s + ht.nameBytes = space := by rw [hbl]; omega
  have hbody : bodyLen s ≤ space := by omega
  have room : Tot (makeRoom junk { ht with collisions := c } h q r0 space) (fun x =>
      x.1.collisions = c ∧ x.1.htsize = ht.htsize ∧ x.1.hbsize = 512 ∧ x.1.nameBytes = ht.nameBytes ∧
      x.1.rest.size = ht.htsize ∧ x.1.head.size = ht.htsize ∧ x.1.buf.size = x.1.bufsize ∧ x.1.bufsize < 2 ^ 63 ∧
      ht.bufsize ≤ x.1.bufsize ∧ x.1.bufsize ≤ ht.bufsize + 512 + space ∧
      (∀ h', h' ≠ h → x.1.rest.data h' = ht.rest.data h' ∧ x.1.head.data h' = ht.head.data h') ∧
      (∀ i, own i ≠ .none → own i ≠ .str h → x.1.buf.data i = ht.buf.data i) ∧
      ((x.1.bufsize = ht.bufsize ∧ x.1.rest.data h = ht.rest.data h) ∨
        (x.1.bufsize = ht.bufsize + 512 + space ∧ x.1.rest.data h = 512 + space ∧ ht.rest.data h ≤ space + 12)) ∧
      x.1.head.data h ≠ 0 ∧
      x.2 + x.1.rest.data h ≤ x.1.bufsize + 1 ∧ space + 12 < x.1.rest.data h ∧ x.2 ≠ 0 ∧ x.2 < 2 ^ 63 ∧
      (∀ i, x.2 ≤ i → i < x.2 + x.1.rest.data h - 1 → own i = .str h ∨ ht.bufsize ≤ i) ∧
      (m % 256 ≠ 0 ∨ ∀ i, x.2 + 1 ≤ i → i < x.2 + 1 + nb m → x.1.buf.data i = 0) ∧
      (∀ (buf' : Mem Nat) (P' : Nat → Prop) (PN' : Nat → Nat → Prop) L2 e2, 
        (∀ i, i < x.2 → own i = .str h → P' i) → (∀ i, i < x.2 → buf'.data i = x.1.buf.data i) →
        (∀ q i, own i = .name q → PN' q i) →
        Chain ht.nameBytes buf' P' PN' x.2 L2 e2 → L2.head?.map Prod.fst = some x.2 →
        Chain ht.nameBytes buf' P' PN' (x.1.head.data h) (ents h ++ L2) e2)) := by
    unfold makeRoom
    simp only [Tot_bind, Mem.Tot_rd]
    refine ⟨by rw [t.restsz]; exact hhl, ?_⟩
    have hrest : ht.rest.data h ≤ ht.bufsize + 1 := by
      by_cases c0 : ht.head.data h = 0
      · rw [(t.empty h hhl c0).2]; omega
      · obtain ⟨B, b1, b2, b3, b4⟩ := t.room h hhl c0
        omega
    have hsm : ht.bufsize + ht.hbsize + space < 2 ^ 63 := by rw [t.hb, ← hspb]; exact hspace.1
    have hsm0 := t.small
    have hlim : spaceLimit (ht.rest.data h) = .ok ((ht.rest.data h : Int) - 12) := by
      unfold spaceLimit
      rw [toI64_eq (by omega), addI64_ok (by omega) (by omega)]; rfl
    have a1 : toI64 (space : Int) = space := toI64_eq (by omega)
    simp only [hlim, Tot_ok, a1]
    clear a1 hlim
    by_cases hroom : (space : Int) ≥ (ht.rest.data h : Int) - 12
    · rw [if_pos hroom]
      have hre : reallocBytes junk ht.buf (ht.bufsize + ht.hbsize + space) = .ok ⟨ht.bufsize + ht.hbsize + space,
          fun i => if i < ht.buf.size then ht.buf.data i else junk i % 256⟩ := by
        unfold reallocBytes; rw [if_pos (by rw [t.hb]; omega)]
      have hh63 : (2 : Nat) ^ 63 < 2 ^ 64 := by norm_num
      simp only [hre, ok_bind, Tot_bind, Mem.Tot_wr]
      refine ⟨by rw [t.restsz]; exact hhl, ?_⟩
      rcases hcase with ⟨c0, rfl, rfl⟩ | ⟨c0, rfl, rfl⟩
      · -- first block
        simp only [linkBlock, if_pos, Tot_bind, Mem.Tot_wr, Tot_ok]
        refine ⟨by rw [t.headsz]; exact hhl, (by first | rfl | trivial), (by first | rfl | trivial), t.hb, (by first | rfl | trivial), by simpa using t.restsz, by simpa using t.headsz,
          by omega, by rw [t.hb]; omega, by omega, by rw [t.hb]; omega, ?_, ?_, ?_, by simp, ?_, ?_, by omega, by omega, ?_, ?_, ?_⟩
        · intro h' hne; exact ⟨Mem.upd_data_ne _ _ hne, Mem.upd_data_ne _ _ hne⟩
        · intro i h1 h2
          rw [if_pos (by rw [t.bufsz]; exact t.ownlt i h1)]
        · right
          refine ⟨?_, ?_, ?_⟩
          · simp only [t.hb]; omega
          · simp only [Mem.upd_data_self, t.hb]
          · omega
        · simp; omega
        · simp; rw [t.hb]; omega
        · intro i h1 _; right; omega
        · rcases hj with hj | hj
          · exact Or.inl hj
          · right; intro i h1 h2
            rw [if_neg (by rw [t.bufsz]; omega)]
            exact hj hnin (by omega) i (by omega)
        · intro buf' P' PN' L2 e2 g1 g2 g3 g4 _
          rw [(t.empty h hhl c0).1]
          simpa using g4
      · -- next block
        obtain ⟨B, b1, b2, b3, b4⟩ := t.room h hhl c0
        have ch := t.chain h hhl c0
        have hE0 := ch.tail.le.2
        simp only [linkBlock, if_neg hE0, Tot_bind]
        refine (setPointer_tot _ (E h) (ht.bufsize + 1) (by simp only; omega)).mono ?_
        rintro nb' ⟨e1, e2, e3⟩
        simp only [Tot_ok] at e1 e2 e3 ⊢
        refine ⟨(by first | rfl | trivial), (by first | rfl | trivial), t.hb, (by first | rfl | trivial), by simpa using t.restsz, by simpa using t.headsz,
          by omega, by rw [t.hb]; omega, by omega, by rw [t.hb]; omega, ?_, ?_, ?_, c0, ?_, ?_, by omega, by omega, ?_, ?_, ?_⟩
        · intro h' hne; exact ⟨Mem.upd_data_ne _ _ hne, trivial⟩
        · intro i h1 h2
          rw [e3 i, if_pos (by rw [t.bufsz]; exact t.ownlt i h1)]
          by_contra hc
          exact h2 (b4 i (by omega) (by omega))
        · right
          refine ⟨?_, ?_, ?_⟩
          · simp only [t.hb]; omega
          · simp only [Mem.upd_data_self, t.hb]
          · omega
        · simp; omega
        · simp; rw [t.hb]; omega
        · intro i h1 _; right; omega
        · rcases hj with hj | hj
          · exact Or.inl hj
          · right; intro i h1 h2
            rw [e3 i (by omega), if_neg (by rw [t.bufsz]; omega)]
            exact hj hnin (by omega) i (by omega)
        · intro buf' P' PN' L2 e2' g1 g2 g3 g4 g5
          refine ch.app ?_ g3 ?_
          · intro i hi hie
            have hib := t.ownlt i (by rw [hi]; simp)
            refine ⟨g1 i (by omega) hi, ?_⟩
            rw [g2 i (by omega), e3 i (by omega), if_pos (by rw [t.bufsz]; exact hib)]
          · refine .jump (E h) (ht.bufsize + 1) L2 e2' hE0 (by omega) (by omega) ?_ ?_ g4 g5
            · intro i i1 i2; exact g1 i (by omega) (b4 i i1 (by omega))
            · exact e2.congr (fun i i1 i2 => g2 i (by omega))
    · rw [if_neg hroom]
      rcases hcase with ⟨c0, rfl, rfl⟩ | ⟨c0, rfl, rfl⟩
      · exfalso
        have := (t.empty h hhl c0).2
        omega
      · obtain ⟨B, b1, b2, b3, b4⟩ := t.room h hhl c0
        have ch := t.chain h hhl c0
        have hE0 := ch.tail.le.2
        have hz := ch.tail.zeros rfl
        have hh63 := t.small
        simp only [Tot_ok]
        refine ⟨(by first | rfl | trivial), (by first | rfl | trivial), t.hb, (by first | rfl | trivial), t.restsz, t.headsz, t.bufsz, t.small, by omega, by omega, 
          fun h' _ => ⟨(by first | rfl | trivial), (by first | rfl | trivial)⟩, fun _ _ _ => (by first | rfl | trivial), Or.inl ⟨(by first | rfl | trivial), (by first | rfl | trivial)⟩, c0, by omega, by omega, hE0, by omega, ?_, ?_, ?_⟩
        · intro i i1 i2; left; exact b4 i i1 (by omega)
        · right; intro i i1 i2
          have := nb_le8 (by omega : 1 ≤ m) hm64
          exact (hz i (by omega) (by omega)).2
        · intro buf' P' PN' L2 e2' g1 g2 g3 g4 g5
          refine ch.app ?_ g3 g4
          intro i hi hie
          exact ⟨g1 i hie hi, g2 i hie⟩
  rw [Tot_bind]
  refine room.mono ?_
  rintro ⟨ht1, r⟩ ⟨a0, a1, a2, a3, a4, a5, a6, a7, a8, a9, a10, a11, aG, a12, a13, a14, a15, a15', a16, a17, a18⟩
  simp only at a0 a1 a2 a3 a4 a5 a6 a7 a8 a9 a10 a11 aG a12 a13 a14 a15 a15' a16 a17 a18
  simp only
  have hwr := writeRecord_tot (buf := ht1.buf) (T := T) (p := p) (m := m) ht.nameBytes r hT (by omega) hm64
    (by rw [hs]; omega) a17
  rw [hs] at hwr
  rw [Tot_bind, a3]
  refine hwr.mono ?_
  rintro nbuf ⟨w1, w2, w3, w4⟩
  simp only [Tot_bind, Mem.Tot_rd, Mem.Tot_wr, Tot_ok]
  rw [subU64_eq (show space ≤ ht1.rest.data h by omega)]
  refine ⟨by omega, by omega, ?_⟩
  right
  refine ⟨hnin, trivial, fun i => if r + bodyLen s ≤ i ∧ i < r + bodyLen s + ht.nameBytes then .name r else
      if ht.bufsize ≤ i ∧ i < ht1.bufsize then .str h else own i,
    fun h' => if h' = h then ents h' ++ [(r, s)] else ents h', fun h' => if h' = h then r + space else E h', r, ?_, ?_⟩
  · -- the invariant
    have hE : ∀ h', h' ≠ h → ∀ i, own i = .str h' →
        (if r + bodyLen s ≤ i ∧ i < r + bodyLen s + ht.nameBytes then Tag.name r else
          if ht.bufsize ≤ i ∧ i < ht1.bufsize then .str h else own i) = .str h' ∧ nbuf.data i = ht.buf.data i := by
      intro h' hne i hi
      have hlt := t.ownlt i (by rw [hi]; simp)
      have hout : i < r ∨ r + space + 12 ≤ i := by
        by_contra hc
        rcases a16 i (by omega) (by omega) with h | h
        · rw [hi] at h; exact hne (by injection h)
        · omega
      constructor
      · rw [if_neg (by omega), if_neg (by omega)]; exact hi
      · rw [w4 i (by omega), a11 i (by rw [hi]; simp) (by rw [hi]; intro h'; exact hne (by injection h'))]
    have hN : ∀ q i, own i = .name q →
        (if r + bodyLen s ≤ i ∧ i < r + bodyLen s + ht.nameBytes then Tag.name r else
          if ht.bufsize ≤ i ∧ i < ht1.bufsize then .str h else own i) = .name q := by
      intro q i hi
      have hlt := t.ownlt i (by rw [hi]; simp)
      have hout : i < r ∨ r + space + 12 ≤ i := by
        by_contra hc
        rcases a16 i (by omega) (by omega) with h | h
        · rw [hi] at h; cases h
        · omega
      rw [if_neg (by omega), if_neg (by omega)]; exact hi
    have hS : ∀ i, r ≤ i → i < r + ht1.rest.data h - 1 → (i < r + bodyLen s ∨ r + space ≤ i) →
        (if r + bodyLen s ≤ i ∧ i < r + bodyLen s + ht.nameBytes then Tag.name r else
          if ht.bufsize ≤ i ∧ i < ht1.bufsize then .str h else own i) = .str h := by
      intro i i1 i2 i3
      rw [if_neg (by omega)]
      rcases a16 i i1 i2 with h | h
      · by_cases hb : ht.bufsize ≤ i ∧ i < ht1.bufsize
        · rw [if_pos hb]
        · rw [if_neg hb]; exact h
      · rw [if_pos (by omega)]
    refine ⟨by simpa [a1] using t.hts, a2, by simpa [a1] using a4, by simpa [a1] using a5, by simpa using by omega, a7, ?_, ?_, ?_, ?_, ?_, ?_⟩
    · intro i hi
      show i < ht1.bufsize
      by_contra hc
      apply hi
      rw [if_neg (by omega), if_neg (by omega)]
      by_contra hn
      have := t.ownlt i hn
      omega
    · intro h' hl h0
      simp only at hl h0 ⊢
      by_cases hne : h' = h
      · subst hne; exact absurd h0 a12
      · rw [if_neg hne]
        rw [(a10 h' hne).2] at h0
        rw [Mem.upd_data_ne _ _ hne, (a10 h' hne).1]
        exact t.empty h' (by omega) h0
    · intro h' hl h0
      simp only [a3] at hl h0 ⊢
      by_cases hne : h' = h
      · subst hne
        rw [if_pos rfl, if_pos rfl]
        apply a18
        · intro i hi1 hi2
          have hlt := t.ownlt i (by rw [hi2]; simp)
          rw [if_neg (by omega), if_neg (by omega)]; exact hi2
        · intro i hi; exact w4 i (by omega)
        · exact hN
        · refine .cons r s [] (r + space) a15 (by omega) (by omega) ?_ ?_ w2 ?_
          · intro i i1 i2; exact hS i i1 (by omega) (by omega)
          · intro j hj; rw [if_pos (by omega)]
          · have hre : r + bodyLen s + ht.nameBytes = r + space := by omega
            have hnil := Chain.nil (NB := ht.nameBytes) (buf := nbuf) (P := fun i => (if r + bodyLen s ≤ i ∧ i < r + bodyLen s + ht.nameBytes then Tag.name r else
              if ht.bufsize ≤ i ∧ i < ht1.bufsize then .str h' else own i) = .str h')
              (PN := fun q i => (if r + bodyLen s ≤ i ∧ i < r + bodyLen s + ht.nameBytes then Tag.name r else
              if ht.bufsize ≤ i ∧ i < ht1.bufsize then .str h' else own i) = .name q) (r + space) (by omega) ?_
            · rw [show r + space = r + bodyLen s + ht.nameBytes by omega] at hnil ⊢
              exact hnil
            intro i i1 i2
            exact ⟨hS i (by omega) (by omega) (by omega), w3 i (by omega) (by omega)⟩
        · rfl
      · rw [if_neg hne, if_neg hne]
        rw [(a10 h' hne).2] at h0 ⊢
        exact (t.chain h' (by omega) h0).frame (hE h' hne) hN
    · intro h' hl h0
      simp only at hl h0 ⊢
      by_cases hne : h' = h
      · subst hne
        rw [if_pos rfl, Mem.upd_data_self]
        refine ⟨r + ht1.rest.data h' - 1, by omega, by omega, by omega, ?_⟩
        intro i i1 i2
        exact hS i (by omega) (by omega) (by omega)
      · rw [if_neg hne, Mem.upd_data_ne _ _ hne, (a10 h' hne).1]
        rw [(a10 h' hne).2] at h0
        obtain ⟨B, b1, b2, b3, b4⟩ := t.room h' (by omega) h0
        refine ⟨B, by omega, b2, b3, ?_⟩
        intro i i1 i2
        exact (hE h' hne i (b4 i i1 i2)).1
    · intro h' hl x hx
      simp only [a1] at hl hx ⊢
      by_cases hne : h' = h
      · rw [if_pos hne] at hx
        rcases List.mem_append.1 hx with hx | hx
        · exact t.hash h' hl x hx
        · rw [List.mem_singleton] at hx
          subst hx
          rw [hne]; exact hh
      · rw [if_neg hne] at hx
        exact t.hash h' hl x hx
    · intro h' hl
      simp only [a1] at hl ⊢
      by_cases hne : h' = h
      · subst hne
        rw [if_pos rfl, List.map_append, List.nodup_append]
        refine ⟨t.nodup h' hl, by simp, ?_⟩
        intro a ha b hb
        simp only [List.map_cons, List.map_nil, List.mem_singleton] at hb
        subst hb
        intro hab; subst hab; exact hnin ha
      · rw [if_neg hne]; exact t.nodup h' hl
  · refine ⟨a1, rfl, ⟨a8, by show ht1.bufsize ≤ _; omega⟩, ?_, ?_, ?_, by rw [hh]; show _ ≤ ht1.collisions; omega, by simp only [hh], ?_, ?_, ?_⟩
    · have := sum_range_upd ht.rest.data (ht1.rest.upd h (ht1.rest.data h - space)).data h (fun i hi => by
        rw [Mem.upd_data_ne _ _ hi]; exact (a10 i hi).1) ht.htsize hhl
      rw [Mem.upd_data_self] at this
      unfold restSum
      simp only [a1]
      omega
    · have := sum_range_upd ht.rest.data (ht1.rest.upd h (ht1.rest.data h - space)).data h (fun i hi => by
        rw [Mem.upd_data_ne _ _ hi]; exact (a10 i hi).1) ht.htsize hhl
      rw [Mem.upd_data_self] at this
      unfold restSum
      simp only [a1]
      omega
    · intro hr h' hh'
      simp only [a1] at hh' ⊢
      by_cases hne : h' = h
      · subst hne
        rw [Mem.upd_data_self]
        have := hr h' hh'
        omega
      · rw [Mem.upd_data_ne _ _ hne, (a10 h' hne).1]; exact hr h' hh'
    · intro q i hi
      have hlt := t.ownlt i (by rw [hi]; simp)
      have hout : i < r ∨ r + space + 12 ≤ i := by
        by_contra hc
        rcases a16 i (by omega) (by omega) with h | h
        · rw [hi] at h; cases h
        · omega
      refine ⟨?_, ?_⟩
      · rw [if_neg (by omega), if_neg (by omega)]; exact hi
      · show nbuf.data i = _
        rw [w4 i (by omega), a11 i (by rw [hi]; simp) (by rw [hi]; simp)]
    · intro h' hne
      rw [hh] at hne
      show (ht1.rest.upd h _).data h' = _
      rw [Mem.upd_data_ne _ _ hne]; exact (a10 h' hne).1
    · rw [hh]
      show (_ ∧ ht1.bufsize = _ ∧ (ht1.rest.upd h _).data h = _) ∨ (_ ∧ ht1.bufsize = _ ∧ (ht1.rest.upd h _).data h = _)
      rw [Mem.upd_data_self]
      omega

theorem insertString_tot (t : Tab ht own ents E) (junk : Fresh) (T : Mem Nat) (m p : Nat) (hT : p + m ≤ T.size)
    (hm : 3 ≤ m) (hspace : junk.Room (ht.bufsize + 512 + (bodyLen (substr T p m) + ht.nameBytes)))
    (hj : m % 256 ≠ 0 ∨ ∀ i, ht.bufsize ≤ i → junk i % 256 = 0) :
    Tot (insertString junk ht T m p) (fun res =>
      (Has ht ents (substr T p m) ∧ res.2 = 0 ∧ ∃ c, ht.collisions ≤ c ∧ res.1 = { ht with collisions := c }) ∨
      (¬ Has ht ents (substr T p m) ∧ res.2 = 1 ∧ ∃ own' ents' E' r, Tab res.1 own' ents' E' ∧
        Added ht own ents (substr T p m) res.1 own' ents' r)) :=
  insertString_fits t junk T m p hT hm hspace (hj.imp_right (fun hz _ _ => hz))

end HashTable
end Flbwt
