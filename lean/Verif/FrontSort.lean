import Verif.FrontExtract
import Mathlib.Data.List.Perm.Subperm

/-!
# `sort_LMS_strings`
-/

namespace Flbwt

open HashTable (Tab Has allEnts substr bodyLen nb hashL RecAt LenAt BE Tag PutAt ok_bind mem_allEnts)

/-! ## The comparison -/

theorem cmp_loop {buf : Mem Nat} (a : List Nat) : ∀ (b : List Nat) (p1 p2 c1 c2 fuel : Nat), a.length < fuel →
    (∀ j, j < a.length → p1 + j < buf.size ∧ buf.data (p1 + j) = a.getD j 0) →
    (∀ j, j < b.length → p2 + j < buf.size ∧ buf.data (p2 + j) = b.getD j 0) →
    Tot (whileM fuel (p1, p2, a.length, b.length, c1, c2) (cmpStep buf)) (fun r =>
      (if r.1 = 0 then false else if r.2.1 = 0 then true else decide (r.2.2.1 < r.2.2.2)) = lmsLt a b) := by
  induction a with
  | nil =>
    intro b p1 p2 c1 c2 fuel hf _ _
    obtain ⟨f, rfl⟩ : ∃ f, fuel = f + 1 := ⟨fuel - 1, by simp at hf; omega⟩
    simp [whileM, cmpStep, lmsLt, ok_bind]
  | cons x a ih =>
    intro b p1 p2 c1 c2 fuel hf h1 h2
    obtain ⟨f, rfl⟩ : ∃ f, fuel = f + 1 := ⟨fuel - 1, by simp at hf; omega⟩
    cases b with
    | nil => simp [whileM, cmpStep, lmsLt, ok_bind]
    | cons y b =>
      have e1 := h1 0 (by simp)
      have e2 := h2 0 (by simp)
      simp only [Nat.add_zero, List.getD_cons_zero] at e1 e2
      simp only [whileM, cmpStep, List.length_cons]
      rw [if_pos (by omega), Mem.rd_ok _ e1.1, ok_bind, Mem.rd_ok _ e2.1, ok_bind, e1.2, e2.2]
      by_cases hxy : x = y
      · subst hxy
        rw [if_neg (by simp), ok_bind]
        simp only [Nat.add_sub_cancel, lmsLt, if_true]
        refine ih b (p1 + 1) (p2 + 1) x x f (by simp at hf; omega) ?_ ?_
        · intro j hj
          have := h1 (j + 1) (by simp; omega)
          rw [show p1 + (j + 1) = p1 + 1 + j by omega, List.getD_cons_succ] at this
          exact this
        · intro j hj
          have := h2 (j + 1) (by simp; omega)
          rw [show p2 + (j + 1) = p2 + 1 + j by omega, List.getD_cons_succ] at this
          exact this
      · rw [if_pos hxy, ok_bind]
        simp [lmsLt, hxy]

theorem lmsCompare_eq {buf : Mem Nat} {r1 r2 : Nat} {s1 s2 : List Nat} (h1 : RecAt buf r1 s1) (h2 : RecAt buf r2 s2)
    (a1 : 1 ≤ s1.length) (a2 : 1 ≤ s2.length) (b1 : s1.length < 2 ^ 64) (b2 : s2.length < 2 ^ 64)
    (c1 : r1 + bodyLen s1 ≤ buf.size) (c2 : r2 + bodyLen s2 ≤ buf.size) :
    lmsCompare buf r1 r2 = .ok (lmsLt s1 s2) := by
  unfold lmsCompare HashTable.getFirstCharacterPointer
  rw [h1.getLength a1 b1 c1, ok_bind, h2.getLength a2 b2 c2, ok_bind]
  unfold HashTable.bodyLen at c1 c2
  rw [Mem.rd_ok _ (by omega), ok_bind, ok_bind, Mem.rd_ok _ (by omega), ok_bind, ok_bind, h1.1.1, h2.1.1]
  obtain ⟨r, e, hr⟩ := Tot_iff.1 (cmp_loop (buf := buf) s1 s2 (r1 + 1 + nb s1.length + 1) (r2 + 1 + nb s2.length + 1) 0 0 (s1.length + 1)
    (by omega) (fun j hj => ⟨by omega, by
      rw [show r1 + 1 + nb s1.length + 1 + j = r1 + 2 + nb s1.length + j by omega]; exact h1.2.2 j hj⟩)
    (fun j hj => ⟨by omega, by
      rw [show r2 + 1 + nb s2.length + 1 + j = r2 + 2 + nb s2.length + j by omega]; exact h2.2.2 j hj⟩))
  rw [e, ok_bind]
  rw [← hr]
  split
  · rfl
  · split <;> rfl

/-! ## Sorting -/

/-- strict weak ordering on the elements of `l`: the requirement of `std::sort` on its comparison -/
structure StrictWeak (lt : Nat → Nat → Bool) (l : List Nat) : Prop where
  irrefl : ∀ a ∈ l, lt a a = false
  trans : ∀ a ∈ l, ∀ b ∈ l, ∀ c ∈ l, lt a b = true → lt b c = true → lt a c = true
  incomp : ∀ a ∈ l, ∀ b ∈ l, ∀ c ∈ l, lt a b = false → lt b c = false → lt a c = false

/-- The contract of `std::sort`: if the comparison, applied to elements of the range, always returns the value of a strict
weak ordering, the result is a permutation of the range without descents. -/
def SortsOK (sorter : Sorter) : Prop := ∀ (cmp : Nat → Nat → M Bool) (lt : Nat → Nat → Bool) (l : List Nat),
  (∀ a ∈ l, ∀ b ∈ l, cmp a b = .ok (lt a b)) → StrictWeak lt l →
  ∃ l', sorter cmp l = .ok l' ∧ l'.Perm l ∧ l'.Pairwise (fun a b => lt b a = false)

theorem mapM_ok' {α β : Type} (f : α → M β) (g : α → β) : ∀ (l : List α), (∀ x ∈ l, f x = .ok (g x)) →
    l.mapM f = .ok (l.map g) := by
  intro l
  induction l with
  | nil => intro _; rfl
  | cons a l ih =>
    intro h
    rw [List.mapM_cons, h a List.mem_cons_self, ok_bind, ih (fun x hx => h x (List.mem_cons_of_mem _ hx)), ok_bind]
    rfl

theorem readRange_eq {s : Mem Nat} {m : Nat} (h : m + 1 ≤ s.size) :
    readRange s m = .ok ((List.range m).map fun i => s.data (i + 1)) := by
  unfold readRange
  exact mapM_ok' _ _ _ (fun i hi => Mem.rd_ok _ (by rw [List.mem_range] at hi; omega))

theorem writeRange_tot {s : Mem Nat} {l : List Nat} (h : l.length + 1 ≤ s.size) :
    Tot (writeRange s l) (fun s' => s'.size = s.size ∧ ∀ i, i < l.length → s'.data (i + 1) = l.getD i 0) := by
  unfold writeRange
  have := loopUp_spec (fun k (s' : Mem Nat) => s'.size = s.size ∧ ∀ i, i < k → s'.data (i + 1) = l.getD i 0) 0 l.length s
    (fun i s => s.wr (i + 1) (l.getD i 0)) ⟨rfl, by intro i hi; omega⟩ (by
      rintro k s' _ k2 ⟨a, b⟩
      rw [Mem.Tot_wr]
      refine ⟨by omega, a, ?_⟩
      intro i hi
      by_cases hk : i = k
      · subst hk; rw [Mem.upd_data_self]
      · rw [Mem.upd_data_ne _ _ (by omega)]; exact b i (by omega))
  simpa using this

/-! ## The table in a larger buffer -/

theorem Tab.frame {ht ht' : HashTable} {own : Nat → Tag} {ents : Nat → List (Nat × List Nat)} {E : Nat → Nat}
    (t : Tab ht own ents E) (h1 : ht'.htsize = ht.htsize) (h2 : ht'.hbsize = ht.hbsize) (h3 : ht'.rest = ht.rest)
    (h4 : ht'.head = ht.head) (h5 : ht'.nameBytes = ht.nameBytes) (h6 : ht'.buf.size = ht'.bufsize)
    (h7 : ht.bufsize ≤ ht'.bufsize) (h8 : ht'.bufsize < 2 ^ 63)
    (h9 : ∀ i, own i ≠ .none → ht'.buf.data i = ht.buf.data i) : Tab ht' own ents E := by
  refine ⟨by rw [h1]; exact t.hts, by rw [h2]; exact t.hb, by rw [h3, h1]; exact t.restsz, by rw [h4, h1]; exact t.headsz, h6, h8,
    fun i hi => by have := t.ownlt i hi; omega, ?_, ?_, ?_, ?_, ?_⟩
  · intro h hh h0; rw [h4] at h0; rw [h3]; exact t.empty h (by omega) h0
  · intro h hh h0
    rw [h4] at h0 ⊢
    rw [h5]
    exact (t.chain h (by omega) h0).frame (fun i hi => ⟨hi, h9 i (by rw [hi]; simp)⟩) (fun _ _ h => h)
  · intro h hh h0
    rw [h4] at h0
    obtain ⟨B, b1, b2, b3, b4⟩ := t.room h (by omega) h0
    exact ⟨B, by omega, by rw [h3]; exact b2, b3, b4⟩
  · intro h hh; rw [h1]; exact t.hash h (by omega)
  · intro h hh; exact t.nodup h (by omega)

/-! ## Names -/

theorem setNamesLoop_spec {ht : HashTable} {own : Nat → Tag} {ents : Nat → List (Nat × List Nat)} {E : Nat → Nat}
    (t : Tab ht own ents E) (hNB : 1 ≤ ht.nameBytes) (s : Mem Nat) (m : Nat) (str : Nat → List Nat) (hs : m + 1 ≤ s.size)
    (hm : ∀ i, 1 ≤ i → i ≤ m → (s.data i, str i) ∈ allEnts ents ht.htsize)
    (hinj : ∀ i j, 1 ≤ i → i ≤ m → 1 ≤ j → j ≤ m → s.data i = s.data j → i = j) :
    Tot (setNamesLoop ht.nameBytes s m ht.buf) (fun buf' => Tab { ht with buf := buf' } own ents E ∧ buf'.size = ht.buf.size ∧
      (∀ i, own i = .none → buf'.data i = ht.buf.data i) ∧
      ∀ i, 1 ≤ i → i ≤ m → BE buf' (s.data i + bodyLen (str i)) ht.nameBytes i) := by
  unfold setNamesLoop
  have := loopUp_spec (fun k (buf' : Mem Nat) => Tab { ht with buf := buf' } own ents E ∧ buf'.size = ht.buf.size ∧
      (∀ i, own i = .none → buf'.data i = ht.buf.data i) ∧
      ∀ i, 1 ≤ i → i < k → BE buf' (s.data i + bodyLen (str i)) ht.nameBytes i) 1 m ht.buf
    (fun i buf => do
      let q ← s.rd i
      HashTable.setName ht.nameBytes buf q i) ⟨t, rfl, fun _ _ => rfl, by intro i i1 i2; omega⟩ (by
    rintro k buf k1 k2 ⟨t', a1, a2, a3⟩
    rw [Mem.rd_ok _ (by omega), ok_bind]
    obtain ⟨h, hh, hx⟩ := mem_allEnts.1 (hm k k1 (by omega))
    refine (HashTable.setName_tab t' hh hx k).mono ?_
    rintro buf' ⟨t2, b1, b2, b3⟩
    refine ⟨t2, b3.trans a1, fun i hi => by rw [b2 i (by rw [hi]; simp)]; exact a2 i hi, ?_⟩
    intro i i1 i2
    by_cases hik : i = k
    · subst hik; exact b1
    · refine (a3 i i1 (by omega)).congr ?_
      intro x x1 x2
      apply b2
      obtain ⟨h', hh', hx'⟩ := mem_allEnts.1 (hm i i1 (by omega))
      have st := t.stored hh' hx'
      have := st.own_name (x - (s.data i + bodyLen (str i))) (by omega)
      rw [show s.data i + bodyLen (str i) + (x - (s.data i + bodyLen (str i))) = x by omega] at this
      rw [this]
      intro he
      apply hik
      exact hinj i k i1 (by omega) k1 (by omega) (by injection he))
  refine this.mono ?_
  rintro buf' ⟨a, b, c, d⟩
  exact ⟨a, b, c, fun i i1 i2 => d i i1 (by omega)⟩

/-! ## Head record and end record -/

theorem writeHead_spec {NB : Nat} {T : Mem Nat} {h u : Nat} {buf : Mem Nat} {r : Nat} (hT : h + 1 ≤ T.size) (hh : h + 1 < 2 ^ 64)
    (hs : r + 2 + nb (h + 1) + (h + 1) + NB ≤ buf.size)
    (hz : (h + 1) % 256 ≠ 0 ∨ ∀ i, r + 1 ≤ i → i < r + 1 + nb (h + 1) → buf.data i = 0) :
    Tot (writeHead NB T h u buf r) (fun x => x.1.size = buf.size ∧ x.2.1 = r + 2 + nb (h + 1) ∧
      x.2.2 = r + 2 + nb (h + 1) + (h + 1) + NB ∧ RecAt x.1 r (substr T 0 (h + 1)) ∧
      (∀ i, i < r → x.1.data i = buf.data i)) := by
  unfold writeHead
  refine Tot.bind (HashTable.setLength_tot buf r (h + 1) (by omega) hh (by omega) hz) ?_
  rintro b1 ⟨a1, a2, a3⟩
  refine Tot.bind (HashTable.setName_tot NB (u + 1) a2 (by omega) hh (by omega)) ?_
  rintro b2 ⟨c1, _, c3⟩
  have l2 : LenAt b2 r (h + 1) := a2.congr (fun i i1 i2 => c3 i (by omega))
  unfold HashTable.getLenlen
  rw [Mem.rd_ok _ (by omega), ok_bind, Mem.rd_ok _ (by omega), ok_bind, l2.1]
  rw [Mem.wr_ok _ _ (by omega), ok_bind]
  have := loopUp_spec (fun k (b : Mem Nat) => b.size = buf.size ∧ (∀ j, j < k → b.data (r + 2 + nb (h + 1) + j) = T.data j) ∧
      ∀ i, i < r + 2 + nb (h + 1) → b.data i = (b2.upd (r + (1 + nb (h + 1))) ((T.data 0 + 1) % 256)).data i) 0 (h + 1)
    (b2.upd (r + (1 + nb (h + 1))) ((T.data 0 + 1) % 256))
    (fun i buf => do
      let c ← T.rd i
      buf.wr (r + (1 + nb (h + 1)) + 1 + i) c) ⟨by simp only [Mem.upd_size]; omega, by intro j hj; omega, fun _ _ => rfl⟩ (by
    rintro k b _ k2 ⟨d1, d2, d3⟩
    rw [Mem.rd_ok _ (by omega), ok_bind, Mem.Tot_wr]
    refine ⟨by omega, d1, ?_, ?_⟩
    · intro j hj
      by_cases hjk : j = k
      · subst hjk
        rw [show r + 2 + nb (h + 1) + j = r + (1 + nb (h + 1)) + 1 + j by omega, Mem.upd_data_self]
      · rw [Mem.upd_data_ne _ _ (by omega)]; exact d2 j (by omega)
    · intro i hi
      rw [Mem.upd_data_ne _ _ (by omega)]; exact d3 i hi)
  refine Tot.bind this ?_
  rintro b ⟨d1, d2, d3⟩
  rw [Tot_ok]
  refine ⟨d1, by simp only; omega, by simp only; omega, ⟨?_, ?_, ?_⟩, ?_⟩
  · rw [HashTable.substr_length]
    refine l2.congr (fun i i1 i2 => ?_)
    simp only
    rw [d3 i (by omega), Mem.upd_data_ne _ _ (by omega)]
  · rw [HashTable.substr_length, HashTable.substr_getD _ _ _ _ (by omega)]
    simp only
    rw [d3 _ (by omega), show r + 1 + nb (h + 1) = r + (1 + nb (h + 1)) by omega, Mem.upd_data_self]
  · intro j hj
    rw [HashTable.substr_length] at hj ⊢
    rw [HashTable.substr_getD _ _ _ _ hj]
    simp only
    rw [d2 j (by omega), Nat.zero_add]
  · intro i hi
    simp only
    rw [d3 i (by omega), Mem.upd_data_ne _ _ (by omega), c3 i (by omega), a3 i (by omega)]

theorem writeEnd_spec {NB : Nat} {buf : Mem Nat} {r : Nat} (hs : r + 4 + NB ≤ buf.size) :
    Tot (writeEnd NB buf r) (fun b => b.size = buf.size ∧ LenAt b r 1 ∧ (∀ i, i < r → b.data i = buf.data i)) := by
  have h1 : nb 1 = 1 := HashTable.nb_small (by omega) (by omega)
  unfold writeEnd
  refine Tot.bind (HashTable.setLength_tot buf r 1 (by omega) (by norm_num) (by omega) (Or.inl (by omega))) ?_
  rintro b1 ⟨a1, a2, a3⟩
  rw [Mem.wr_ok _ _ (by omega), ok_bind]
  have := loopUp_spec (fun _ (b : Mem Nat) => b.size = buf.size ∧ ∀ i, i < r + 2 → b.data i = b1.data i) 0 NB (b1.upd (r + 2) 0)
    (fun i buf => buf.wr (r + 4 + i) 0) ⟨a1, fun i hi => Mem.upd_data_ne _ _ (by omega)⟩ (by
      rintro k b _ k2 ⟨d1, d2⟩
      rw [Mem.Tot_wr]
      exact ⟨by omega, d1, fun i hi => by rw [Mem.upd_data_ne _ _ (by omega)]; exact d2 i hi⟩)
  refine this.mono ?_
  rintro b ⟨d1, d2⟩
  exact ⟨d1, a2.congr (fun i i1 i2 => d2 i (by omega)), fun i hi => by rw [d2 i (by omega), a3 i (by omega)]⟩

theorem minMax_spec {s : Mem Nat} {u : Nat} (hs : u + 2 ≤ s.size) (hmx : ∀ i, i ≤ u + 1 → s.data i ≤ s.data 0) :
    Tot (minMax s u) (fun mm => mm.2 = s.data 0 ∧ (∀ i, i ≤ u + 1 → mm.1 ≤ s.data i) ∧ ∃ i, i ≤ u + 1 ∧ mm.1 = s.data i) := by
  unfold minMax
  rw [Mem.rd_ok _ (by omega), ok_bind]
  have := loopUp_spec (fun k (mm : Nat × Nat) => mm.2 = s.data 0 ∧ (∀ i, i < k → mm.1 ≤ s.data i) ∧ ∃ i, i ≤ u + 1 ∧ mm.1 = s.data i) 1 (u + 1)
    (s.data 0, s.data 0) (fun i mm => do
      let x ← s.rd i
      let mn := if x < mm.1 then x else mm.1
      let mx := if mm.2 < x then x else mm.2
      .ok (mn, mx)) ⟨rfl, fun i hi => by
        have : i = 0 := by omega
        subst this; exact Nat.le_refl _, 0, by omega, rfl⟩ (by
    rintro k ⟨mn, mx⟩ k1 k2 ⟨a1, a2, a3⟩
    simp only at a1 a2 a3
    rw [Mem.rd_ok _ (by omega), ok_bind]
    simp only [Tot_ok]
    refine ⟨?_, ?_, ?_⟩
    · have := hmx k (by omega)
      rw [if_neg (by omega)]; exact a1
    · intro i hi
      by_cases hik : i = k
      · subst hik; split <;> omega
      · have := a2 i (by omega); split <;> omega
    · split
      · exact ⟨k, by omega, rfl⟩
      · exact a3)
  refine this.mono ?_
  rintro mm ⟨a, b, c⟩
  exact ⟨a, fun i hi => b i (by omega), c⟩

/-! ## The result -/

/-- What `sort_LMS_strings` leaves: the record pointers `s`, the names, the head record and the end record. -/
structure SortedOK (T : Mem Nat) (n : Nat) (ct ct' : Container) (ht : HashTable) (s : Mem Nat) (str : Nat → List Nat) : Prop where
  htab : ct'.hashtable = some ht
  same : ct'.n = ct.n ∧ ct'.M = ct.M ∧ ct'.NL = ct.NL ∧ ct'.C = ct.C ∧ ct'.M2 = ct.M2 ∧ ct'.M3 = ct.M3 ∧ ct'.C2 = ct.C2 ∧
    ct'.numSubs = ct.numSubs ∧ ct'.numUnique = ct.numUnique ∧ ct'.headEnd = ct.headEnd
  ssz : s.size = ct.numUnique + 2
  bsz : ht.buf.size < 2 ^ 63
  cap : ht.buf.size ≤ 34701855 + 27 * n ∧ ht.buf.size = ht.bufsize
  grow : ∀ ht0, ct.hashtable = some ht0 → ht0.bufsize ≤ ht.buf.size
  rec' : ∀ i, 1 ≤ i → i ≤ ct.numUnique → RecAt ht.buf (s.data i) (str i) ∧ s.data i + bodyLen (str i) ≤ s.data (ct.numUnique + 1) ∧
    3 ≤ (str i).length ∧ (str i).length < 2 ^ 64
  lt : ∀ i j, 1 ≤ i → i < j → j ≤ ct.numUnique → lmsLt (str i) (str j) = true
  mem : ∀ x, (∃ p, isLMS T.data n p ∧ wstr T.data n p = x) ↔ ∃ i, 1 ≤ i ∧ i ≤ ct.numUnique ∧ str i = x
  find : ∀ (T' : Mem Nat) (p i : Nat), p + (str i).length ≤ T'.size → 1 ≤ i → i ≤ ct.numUnique →
    substr T' p (str i).length = str i → HashTable.findName ht T' (str i).length p = .ok i
  head : RecAt ht.buf (s.data (ct.numUnique + 1)) (substr T 0 (ct.headEnd + 1))
  hend : s.data 0 = s.data (ct.numUnique + 1) + bodyLen (substr T 0 (ct.headEnd + 1)) + ht.nameBytes
  fin : LenAt ht.buf (s.data 0) 1
  fsz : s.data 0 + 4 + ht.nameBytes ≤ ht.buf.size
  lastptr : ct'.lastptr = (s.data (ct.numUnique + 1) + 2 + nb (ct.headEnd + 1) : Nat)
  base : ∃ mn : Nat, ct'.bwpBase = (mn : Int) - 1 ∧ (∀ i, i ≤ ct.numUnique + 1 → mn ≤ s.data i) ∧
    (1 ≤ ct'.bwpWidth ∧ ct'.bwpWidth ≤ 63 ∧ 2 ^ (ct'.bwpWidth - 1) ≤ s.data 0 - mn + 2 ∧ s.data 0 - mn + 2 < 2 ^ ct'.bwpWidth) ∧
    ct'.saMax = s.data 0 + 4 - mn
  small : s.data 0 < 2 ^ 62
  tab : ∃ own ents E, Tab ht own ents E ∧ (allEnts ents ht.htsize).length ≤ lmsN T.data n

theorem uniq_le {T : Nat → Nat} {n : Nat} {ht : HashTable} {own : Nat → Tag} {ents : Nat → List (Nat × List Nat)} {E : Nat → Nat}
    (t : Tab ht own ents E) (hset : ∀ s, Has ht ents s ↔ ∃ x, isLMS T n x ∧ wstr T n x = s) :
    (allEnts ents ht.htsize).length ≤ lmsN T n := by
  have hsub : ∀ x ∈ (allEnts ents ht.htsize).map Prod.snd, x ∈ ((List.range (lmsN T n)).map fun a => wstr T n (lpos T n a)) := by
    intro x hx
    rw [← t.has_iff, hset] at hx
    obtain ⟨p, hp, rfl⟩ := hx
    exact List.mem_map.2 ⟨tix T n p, List.mem_range.2 (tix_lt hp), by rw [lpos_tix hp]⟩
  have := (List.Nodup.subperm t.nodup_all hsub).length_le
  simpa using this

/-- What the first part of `sort_LMS_strings` leaves: the records sorted by their strings, named 1, 2, ..., and a fresh
region for the head record and the end record. -/
structure Named (T : Nat → Nat) (n : Nat) (junk : Fresh) (ct : Container) (ht ht2 : HashTable) (s2 : Mem Nat)
    (own : Nat → Tag) (ents : Nat → List (Nat × List Nat)) (E : Nat → Nat) (strAt : Nat → List Nat) : Prop where
  t : Tab ht own ents E
  set : ∀ s, Has ht ents s ↔ ∃ x, isLMS T n x ∧ wstr T n x = s
  t2 : Tab ht2 own ents E
  nbs : ht2.nameBytes = ht.nameBytes
  hts : ht2.htsize = ht.htsize
  bsz : ht2.bufsize = ht.bufsize + (1 + 1 + nb (ct.headEnd + 1) + (ct.headEnd + 1) + ht.nameBytes + (1 + 1 + 1 + 1 + ht.nameBytes))
  junkd : ∀ i, ht.bufsize ≤ i → ht2.buf.data i = junk i % 256
  ssz : s2.size = ct.numUnique + 2
  mem : ∀ i, 1 ≤ i → i ≤ ct.numUnique → (s2.data i, strAt (s2.data i)) ∈ allEnts ents ht.htsize
  inj : ∀ i j, 1 ≤ i → i ≤ ct.numUnique → 1 ≤ j → j ≤ ct.numUnique → s2.data i = s2.data j → i = j
  lt : ∀ i j, 1 ≤ i → i < j → j ≤ ct.numUnique → lmsLt (strAt (s2.data i)) (strAt (s2.data j)) = true
  onto : ∀ y ∈ allEnts ents ht.htsize, ∃ i, 1 ≤ i ∧ i ≤ ct.numUnique ∧ s2.data i = y.1 ∧ strAt y.1 = y.2
  name : ∀ i, 1 ≤ i → i ≤ ct.numUnique → BE ht2.buf (s2.data i + bodyLen (strAt (s2.data i))) ht.nameBytes i

theorem headEnd_le {T : Nat → Nat} {n : Nat} {ct : Container} {ht : HashTable} (X : Extracted T n ct ht) : ct.headEnd ≤ n := by
  rw [X.headEnd]
  by_cases h : 0 < lmsN T n
  · have := (lpos_spec h).1.2.1; omega
  · rw [lpos_end (by omega)]

theorem sortNames_spec {T : Mem Nat} {n : Nat} (I : Input T n) (junk : Fresh) (hroom : enoughFor n ≤ junk.lim) {sorter : Sorter}
    (hsort : SortsOK sorter) (pj : Nat → Nat) {ct : Container} {ht : HashTable} (X : Extracted T.data n ct ht) :
    Tot (sortNames sorter pj junk ct ht) (fun r => ∃ own ents E strAt,
      Named T.data n junk ct ht r.1 r.2 own ents E strAt) := by
  have hn := I.nlt
  have hn3 := I.n3
  have hTs := I.size
  obtain ⟨⟨own, ents, E, t, hset0, hu, _⟩, hN1, hN8, hnm, _⟩ := X.hok
  have hset : ∀ s, Has ht ents s ↔ ∃ x, isLMS T.data n x ∧ wstr T.data n x = s := fun s => by
    rw [hset0 s]; simp
  have hul := uniq_le t hset
  rw [← hu] at hul
  have hln := lmsN_le (T := T.data) (n := n) (by omega)
  have hhe := headEnd_le X
  have hbs := X.small
  have h57 : (2 : Nat) ^ 57 * 32 = 2 ^ 62 := by norm_num
  have h64 : (2 : Nat) ^ 63 < 2 ^ 64 := by norm_num
  have hnb : nb (ct.headEnd + 1) ≤ 8 := HashTable.nb_le8 (by omega) (by omega)
  unfold sortNames
  simp only
  rw [HashTable.calculateLenlen_eq (by omega) (by omega), ok_bind]
  obtain ⟨space, hspace⟩ : ∃ x, x = 1 + 1 + nb (ct.headEnd + 1) + (ct.headEnd + 1) + ht.nameBytes + (1 + 1 + 1 + 1 + ht.nameBytes) := ⟨_, rfl⟩
  rw [← hspace]
  unfold reallocBytes
  unfold enoughFor at hroom
  rw [if_pos (by constructor <;> omega), ok_bind]
  obtain ⟨buf1, hbuf1⟩ : ∃ b : Mem Nat, b = ⟨ht.bufsize + space, fun i => if i < ht.buf.size then ht.buf.data i else junk i % 256⟩ := ⟨_, rfl⟩
  rw [← hbuf1]
  have hb1s : buf1.size = ht.bufsize + space := by rw [hbuf1]
  have hb1d : ∀ i, i < ht.bufsize → buf1.data i = ht.buf.data i := by
    intro i hi; rw [hbuf1]; simp only; rw [if_pos (by rw [t.bufsz]; exact hi)]
  have hb1j : ∀ i, ht.bufsize ≤ i → buf1.data i = junk i % 256 := by
    intro i hi; rw [hbuf1]; simp only; rw [if_neg (by rw [t.bufsz]; omega)]
  obtain ⟨ht1, hht1⟩ : ∃ h : HashTable, h = { ht with buf := buf1, bufsize := ht.bufsize + space } := ⟨_, rfl⟩
  rw [← hht1]
  have e1 : ht1.htsize = ht.htsize := by rw [hht1]
  have e2 : ht1.nameBytes = ht.nameBytes := by rw [hht1]
  have e3 : ht1.buf = buf1 := by rw [hht1]
  have t1 : Tab ht1 own ents E := by
    refine Tab.frame t e1 (by rw [hht1]) (by rw [hht1]) (by rw [hht1]) e2 (by rw [hht1]; exact hb1s) (by rw [hht1]; simp only; omega)
      (by rw [hht1]; simp only; omega) (fun i hi => by rw [e3]; exact hb1d i (t.ownlt i hi))
  refine Tot.bind (HashTable.collect_tot t1 ⟨ct.numUnique + 2, pj⟩ 1 (by rw [e1, ← hu]; simp only; omega) ht1 rfl rfl rfl (Nat.le_refl _)
    (fun _ _ => rfl)) ?_
  rintro ⟨s1, j1⟩ ⟨⟨p1, p2, _⟩, hj⟩
  rw [e1, ← hu] at hj
  simp only at p1 hj
  rw [List.length_map, e1, ← hu] at p2
  simp only at p2
  subst hj
  simp only [subU64_eq (show 1 ≤ 1 + ct.numUnique by omega), Nat.add_sub_cancel_left]
  rw [readRange_eq (by omega), ok_bind]
  have hl1 : ((List.range ct.numUnique).map fun i => s1.data (i + 1)) = (allEnts ents ht.htsize).map Prod.fst := by
    apply List.ext_getElem (by simp [hu])
    intro k h1 h2
    simp only [List.length_map, List.length_range] at h1
    have := p2 k h1
    rw [Nat.add_comm] at this
    simp only [List.getElem_map, List.getElem_range]
    rw [this, List.getD_eq_getElem?_getD, List.getElem?_eq_getElem (by simpa [hu] using h1)]
    simp
  rw [hl1]
  -- strings at offsets
  classical
  obtain ⟨strAt, hstrAt⟩ : ∃ f : Nat → List Nat, ∀ x ∈ allEnts ents ht.htsize, f x.1 = x.2 := by
    refine ⟨fun q => if h : ∃ x ∈ allEnts ents ht.htsize, x.1 = q then h.choose.2 else [], ?_⟩
    intro x hx
    have hex : ∃ y ∈ allEnts ents ht.htsize, y.1 = x.1 := ⟨x, hx, rfl⟩
    simp only [dif_pos hex]
    have h1 := hex.choose_spec
    exact congrArg Prod.snd (((t.inj hN1 h1.1 hx).1).1 h1.2)
  have hoff : ∀ q, q ∈ (allEnts ents ht.htsize).map Prod.fst → (q, strAt q) ∈ allEnts ents ht.htsize := by
    intro q hq
    obtain ⟨x, hx, rfl⟩ := List.mem_map.1 hq
    rw [hstrAt x hx]; exact hx
  have hst : ∀ q, q ∈ (allEnts ents ht.htsize).map Prod.fst → HashTable.Stored ht1 own q (strAt q) := by
    intro q hq
    obtain ⟨h, hh, hx⟩ := mem_allEnts.1 (hoff q hq)
    exact t1.stored (by rw [e1]; exact hh) hx
  obtain ⟨l', hl', hperm, hpw⟩ := hsort (lmsCompare ht1.buf) (fun a b => lmsLt (strAt a) (strAt b)) ((allEnts ents ht.htsize).map Prod.fst)
    (by
      intro a ha b hb
      have sa := hst a ha
      have sb := hst b hb
      exact lmsCompare_eq sa.at_ sb.at_ (by have := sa.len; omega) (by have := sb.len; omega) sa.len64 sb.len64
        (by have := sa.bound; omega) (by have := sb.bound; omega))
    (by
      refine ⟨fun a _ => lmsLt_irrefl _, fun a _ b _ c _ h1 h2 => lmsLt_trans h1 h2, ?_⟩
      intro a ha b hb c hc h1 h2
      by_contra hcon
      have hcon : lmsLt (strAt a) (strAt c) = true := by simpa using hcon
      by_cases hab : strAt a = strAt b
      · rw [hab, h2] at hcon; exact absurd hcon (by simp)
      · rcases lmsLt_total hab with h3 | h3
        · rw [h1] at h3; exact absurd h3 (by simp)
        · have := lmsLt_trans h3 hcon
          rw [h2] at this; exact absurd this (by simp))
  rw [e3] at hl'
  rw [hl', ok_bind]
  have hlen : l'.length = ct.numUnique := by rw [hperm.length_eq, List.length_map, hu]
  have hndfst : ((allEnts ents ht.htsize).map Prod.fst).Nodup :=
    List.Nodup.map_on (fun x hx y hy h => ((t.inj hN1 hx hy).1).1 h) (List.Nodup.of_map _ t.nodup_all)
  have hnd : l'.Nodup := hperm.nodup_iff.2 hndfst
  refine Tot.bind (writeRange_tot (s := s1) (l := l') (by rw [hlen]; omega)) ?_
  rintro s2 ⟨q1, q2⟩
  rw [hlen] at q2
  have hs2 : ∀ i, 1 ≤ i → i ≤ ct.numUnique → ∃ (h : i - 1 < l'.length), s2.data i = l'[i - 1] := by
    intro i i1 i2
    have := q2 (i - 1) (by omega)
    rw [show i - 1 + 1 = i by omega] at this
    exact ⟨by omega, by rw [this, List.getD_eq_getElem?_getD, List.getElem?_eq_getElem (by omega)]; rfl⟩
  have hs2m : ∀ i, 1 ≤ i → i ≤ ct.numUnique → s2.data i ∈ (allEnts ents ht.htsize).map Prod.fst := by
    intro i i1 i2
    obtain ⟨h, he⟩ := hs2 i i1 i2
    rw [he]; exact hperm.mem_iff.1 (List.getElem_mem h)
  have hs2inj : ∀ i j, 1 ≤ i → i ≤ ct.numUnique → 1 ≤ j → j ≤ ct.numUnique → s2.data i = s2.data j → i = j := by
    intro i j i1 i2 j1 j2 h
    obtain ⟨h1, he1⟩ := hs2 i i1 i2
    obtain ⟨h2, he2⟩ := hs2 j j1 j2
    rw [he1, he2] at h
    have := (List.Nodup.getElem_inj_iff hnd).1 h
    omega
  have := setNamesLoop_spec t1 (by omega) s2 ct.numUnique (fun i => strAt (s2.data i)) (by omega)
    (fun i i1 i2 => by rw [e1]; exact hoff _ (hs2m i i1 i2)) hs2inj
  rw [e3, e2] at this
  refine Tot.bind this ?_
  rintro buf2 ⟨t2, b1, b2, b3⟩
  rw [Tot_ok]
  have hown : ∀ i, ht.bufsize ≤ i → own i = .none := by
    intro i hi
    by_contra hc
    have := t.ownlt i hc; omega
  refine ⟨own, ents, E, strAt, ⟨t, hset, ?_, rfl, rfl, ?_, ?_, ?_, fun i i1 i2 => hoff _ (hs2m i i1 i2), hs2inj, ?_, ?_, b3⟩⟩
  · rw [hht1] at t2; exact t2
  · simp only; omega
  · intro i hi
    simp only
    rw [b2 i (hown i hi), hb1j i hi]
  · simp only; omega
  · intro i j i1 hij hj
    obtain ⟨h1, he1⟩ := hs2 i i1 (by omega)
    obtain ⟨h2, he2⟩ := hs2 j (by omega) hj
    have hp := List.pairwise_iff_getElem.1 hpw (i - 1) (j - 1) h1 h2 (by omega)
    rw [← he1, ← he2] at hp
    have hne : strAt (s2.data i) ≠ strAt (s2.data j) := by
      intro h
      have m1 := hoff _ (hs2m i i1 (by omega))
      have m2 := hoff _ (hs2m j (by omega) hj)
      have := ((t.inj hN1 m1 m2).2).1 h
      have := hs2inj i j i1 (by omega) (by omega) hj (congrArg Prod.fst this)
      omega
    rcases lmsLt_total hne with h | h
    · exact h
    · rw [hp] at h; exact absurd h (by simp)
  · intro y hy
    have hm : y.1 ∈ l' := hperm.mem_iff.2 (List.mem_map.2 ⟨y, hy, rfl⟩)
    obtain ⟨k, hk, hk2⟩ := List.getElem_of_mem hm
    obtain ⟨h1, he1⟩ := hs2 (k + 1) (by omega) (by omega)
    simp only [Nat.add_sub_cancel] at he1
    exact ⟨k + 1, by omega, by omega, by rw [he1, hk2], hstrAt y hy⟩

theorem sortLMS_spec {T : Mem Nat} {n : Nat} (I : Input T n) {junk : Fresh} (hL : LenOK junk T.data n) {sorter : Sorter}
    (hsort : SortsOK sorter) (pj : Nat → Nat) {ct : Container} {ht : HashTable} (X : Extracted T.data n ct ht) :
    Tot (sortLMS sorter pj junk T ct) (fun r => ∃ ht' str, SortedOK T n ct r.2 ht' r.1 str) := by
  have hn := I.nlt
  have hn3 := I.n3
  have hTs := I.size
  have hhe := headEnd_le X
  have hbs := X.small
  obtain ⟨_, hN1, hN8, hnm, _⟩ := X.hok
  have h57 : (2 : Nat) ^ 57 * 32 = 2 ^ 62 := by norm_num
  have h64 : (2 : Nat) ^ 63 < 2 ^ 64 := by norm_num
  have hnb : nb (ct.headEnd + 1) ≤ 8 := HashTable.nb_le8 (by omega) (by omega)
  unfold sortLMS
  rw [X.htab]
  simp only
  refine Tot.bind (sortNames_spec I junk hL.room hsort pj X) ?_
  rintro ⟨ht2, s2⟩ ⟨own, ents, E, strAt, N⟩
  have t := N.t
  have hset := N.set
  have t2 := N.t2
  have e1 := N.hts
  have e2 := N.nbs
  have hbsz := N.bsz
  have hssz := N.ssz
  have b1 := t2.bufsz
  have hoff := N.mem
  simp only at t2 e1 e2 hbsz hssz b1 hoff ⊢
  obtain ⟨space, hspace⟩ : ∃ x, x = 1 + 1 + nb (ct.headEnd + 1) + (ct.headEnd + 1) + ht.nameBytes + (1 + 1 + 1 + 1 + ht.nameBytes) := ⟨_, rfl⟩
  rw [← hspace] at hbsz
  have hul : ct.numUnique ≤ n / 2 := by
    have h1 := uniq_le t hset
    have h2 := lmsN_le (T := T.data) (n := n) (by omega)
    have h3 := N.inj
    have h4 : ct.numUnique ≤ (allEnts ents ht.htsize).length := by
      have := List.Nodup.subperm (l₁ := (List.range ct.numUnique).map fun i => (s2.data (i + 1), strAt (s2.data (i + 1))))
        (l₂ := allEnts ents ht.htsize) (List.Nodup.map_on (by
          intro x hx y hy hxy
          rw [List.mem_range] at hx hy
          have := h3 (x + 1) (y + 1) (by omega) (by omega) (by omega) (by omega) (congrArg Prod.fst hxy)
          omega) List.nodup_range) (by
          intro x hx
          obtain ⟨i, hi, rfl⟩ := List.mem_map.1 hx
          rw [List.mem_range] at hi
          exact hoff (i + 1) (by omega) (by omega))
      simpa using this.length_le
    omega
  unfold sortHead
  rw [Mem.wr_ok _ _ (by omega), ok_bind, e2]
  refine Tot.bind (writeHead_spec (NB := ht.nameBytes) (T := T) (h := ct.headEnd) (u := ct.numUnique) (buf := ht2.buf) (r := ht.bufsize)
    (by omega) (by omega) (by rw [b1, hbsz]; omega) ?_) ?_
  · rcases hL.ok with hz | ⟨_, hz⟩
    · right
      intro i i1 i2
      rw [N.junkd i (by omega), hz i]
    · left; rw [X.headEnd]; exact hz
  rintro ⟨buf3, lp, r0⟩ ⟨c1, c2, c3, c4, c5⟩
  simp only at c1 c2 c3 c4 c5
  have hr0 : r0 = ht.bufsize + space - (4 + ht.nameBytes) := by omega
  simp only
  rw [Mem.wr_ok _ _ (by simp only [Mem.upd_size]; omega), ok_bind]
  refine Tot.bind (writeEnd_spec (NB := ht.nameBytes) (buf := buf3) (r := r0) (by rw [c1, b1, hbsz]; omega)) ?_
  rintro buf4 ⟨d1, d2, d3⟩
  obtain ⟨s, hs⟩ : ∃ s : Mem Nat, s = (s2.upd (ct.numUnique + 1) ht.bufsize).upd 0 r0 := ⟨_, rfl⟩
  rw [← hs]
  have hss : s.size = ct.numUnique + 2 := by rw [hs]; simp only [Mem.upd_size]; omega
  have hsd0 : s.data 0 = r0 := by rw [hs, Mem.upd_data_self]
  have hsdh : s.data (ct.numUnique + 1) = ht.bufsize := by rw [hs, Mem.upd_data_ne _ _ (by omega), Mem.upd_data_self]
  have hsd : ∀ i, 1 ≤ i → i ≤ ct.numUnique → s.data i = s2.data i := fun i i1 i2 => by
    rw [hs, Mem.upd_data_ne _ _ (by omega), Mem.upd_data_ne _ _ (by omega)]
  -- records lie before the head record
  have hrb : ∀ i, 1 ≤ i → i ≤ ct.numUnique → s2.data i + bodyLen (strAt (s2.data i)) + ht.nameBytes ≤ ht.bufsize := by
    intro i i1 i2
    obtain ⟨h, hh, hx⟩ := mem_allEnts.1 (hoff i i1 i2)
    have := (t.stored hh hx).own_name (ht.nameBytes - 1) (by omega)
    have := t.ownlt _ (show own (s2.data i + bodyLen (strAt (s2.data i)) + (ht.nameBytes - 1)) ≠ .none by rw [this]; simp)
    omega
  have hmx : ∀ i, i ≤ ct.numUnique + 1 → s.data i ≤ s.data 0 := by
    intro i hi
    rw [hsd0]
    by_cases h0 : i = 0
    · rw [h0, hsd0]
    · by_cases h1 : i = ct.numUnique + 1
      · rw [h1, hsdh]; omega
      · rw [hsd i (by omega) (by omega)]
        have := hrb i (by omega) (by omega); omega
  refine Tot.bind (minMax_spec (s := s) (u := ct.numUnique) (by omega) hmx) ?_
  rintro ⟨mn, mx⟩ ⟨f1, f2, ⟨i0, f3, f4⟩⟩
  simp only at f1 f2 f4
  have hmn0 : mn ≤ r0 := by have := f2 0 (by omega); omega
  have hr0s : r0 < 2 ^ 62 := by omega
  obtain ⟨w, ew, w1, w2, w3, w4⟩ := Tot_iff.1 (positionOfMsb_spec (mx - mn + 2) (by omega) (by omega))
  simp only
  rw [subU64_eq (show mn ≤ mx by omega), ew, ok_bind, f1, hsd0]
  have hn1 : nb 1 = 1 := HashTable.nb_small (by omega) (by omega)
  rw [HashTable.getLength_eq d2 (by omega) (by norm_num) (by rw [d1, c1, b1, hbsz]; omega), ok_bind]
  unfold HashTable.getFirstCharacterPointer
  rw [Mem.rd_ok _ (by rw [d1, c1, b1, hbsz]; omega), ok_bind, ok_bind, d2.1, hn1, Tot_ok, toU64_eq (by omega)]
  obtain ⟨ht4, hht4⟩ : ∃ h : HashTable, h = { ht2 with buf := buf4 } := ⟨_, rfl⟩
  have e4 : ht4.buf = buf4 := by rw [hht4]
  have e5 : ht4.nameBytes = ht.nameBytes := by rw [hht4]; exact e2
  have e6 : ht4.htsize = ht.htsize := by rw [hht4]; exact e1
  have hfr : ∀ i, i < ht.bufsize → buf4.data i = ht2.buf.data i := fun i hi => by rw [d3 i (by omega), c5 i hi]
  have t4 : Tab ht4 own ents E := by
    refine Tab.frame t2 (by rw [hht4]) (by rw [hht4]) (by rw [hht4]) (by rw [hht4]) (by simp only [hht4]) ?_ (by rw [hht4]) ?_ ?_
    · rw [hht4]; simp only; omega
    · rw [hht4]; simp only; omega
    · intro i hi; rw [e4]; exact hfr i (t.ownlt i hi)
  have hst4 : ∀ i, 1 ≤ i → i ≤ ct.numUnique → HashTable.Stored ht4 own (s2.data i) (strAt (s2.data i)) := by
    intro i i1 i2
    obtain ⟨h, hh, hx⟩ := mem_allEnts.1 (hoff i i1 i2)
    exact t4.stored (by rw [e6]; exact hh) hx
  have hw63 : w ≤ 63 := by
    by_contra hc
    have : (2 : Nat) ^ 63 ≤ 2 ^ (w - 1) := Nat.pow_le_pow_right (by norm_num) (by omega)
    omega
  refine ⟨ht4, fun i => strAt (s2.data i), ?_⟩
  constructor
  · simp only [hht4, e2]
  · exact ⟨rfl, rfl, rfl, rfl, rfl, rfl, rfl, rfl, rfl, rfl⟩
  · exact hss
  · rw [e4, d1, c1, b1, hbsz]; omega
  · exact ⟨by rw [e4, d1, c1, b1, hbsz]; omega, t4.bufsz⟩
  · intro ht0 h0
    rw [X.htab] at h0
    cases h0
    rw [e4, d1, c1, b1, hbsz]; omega
  · intro i i1 i2
    have := hst4 i i1 i2
    simp only
    rw [hsd i i1 i2, hsdh]
    exact ⟨this.at_, by have := hrb i i1 i2; omega, this.len, this.len64⟩
  · exact N.lt
  · intro x
    rw [← hset x, t.has_iff]
    constructor
    · intro hx
      obtain ⟨y, hy, rfl⟩ := List.mem_map.1 hx
      obtain ⟨i, i1, i2, i3, i4⟩ := N.onto y hy
      exact ⟨i, i1, i2, by rw [show s2.data i = y.1 from i3, i4]⟩
    · rintro ⟨i, i1, i2, rfl⟩
      exact List.mem_map.2 ⟨_, hoff i i1 i2, rfl⟩
  · intro T' p i hT' i1 i2 hsub
    have st := hst4 i i1 i2
    obtain ⟨h, hh, hx⟩ := mem_allEnts.1 (hoff i i1 i2)
    have hhash := t.hash h hh _ hx
    simp only at hhash
    rw [HashTable.findName_present t4 T' _ p (s2.data i) hT' (by rw [hsub, e6, hhash]; exact hx)]
    refine st.getName_eq (by omega) ?_ ?_
    · rw [e5]
      have : ct.numUnique ≤ n / 2 := by omega
      omega
    · rw [e5, e4]
      refine (N.name i i1 i2).congr (fun x x1 x2 => hfr x ?_)
      have := hrb i i1 i2; simp only at x2; omega
  · rw [hsdh, e4]
    refine c4.congr (fun i i1 i2 => ?_)
    apply d3
    unfold HashTable.bodyLen at i2
    rw [HashTable.substr_length] at i2
    omega
  · rw [hsd0, hsdh, e5]
    unfold HashTable.bodyLen
    rw [HashTable.substr_length]; omega
  · rw [e4, hsd0]; exact d2
  · rw [e4, hsd0, e5, d1, c1, b1, hbsz]; omega
  · simp only; rw [hsdh, c2]
  · refine ⟨mn, rfl, f2, ⟨w1, hw63, ?_, ?_⟩, ?_⟩
    · simp only; rw [f1] at w3; exact w3
    · simp only; rw [f1] at w4; exact w4
    · simp only; rw [hsd0]; omega
  · rw [hsd0]; exact hr0s
  · exact ⟨own, ents, E, t4, by rw [e6]; exact uniq_le t hset⟩

end Flbwt
