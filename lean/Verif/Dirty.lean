import Verif.PropsDirty
import Verif.FrontShort

/-!
# A record whose stored length is too large (used by C91)

What the front end does when the only S* substring has a length that is a multiple of 256 (but not of 65536) and the last
byte of its length field holds an old value between 1 and 11.
-/

namespace Flbwt

open HashTable (ok_bind nb nb_le8 nb_pos nb_lt nb_le nb_unique LenAt getLength getLength_eq hashL substr)

/-- The last byte of the length field is not written: the stored length is the sum of the length and the old byte. -/
theorem setLength_last (buf : Mem Nat) (p m x : Nat) (h1 : 1 ≤ m) (h2 : m < 2 ^ 62) (hs : p + 1 + nb m ≤ buf.size)
    (hm : m % 256 = 0) (hm2 : m / 256 % 256 ≠ 0) (hx : x < 256) (hj : buf.data (p + nb m) = x) :
    nb (m + x) = nb m ∧ Tot (HashTable.setLength buf p m) (fun buf' => buf'.size = buf.size ∧ LenAt buf' p (m + x) ∧
      ∀ i, (i < p ∨ p + 1 + nb m ≤ i) → buf'.data i = buf.data i) := by
  have hb1 := nb_pos m
  have hlt := nb_lt m
  have hle := nb_le h1
  have hnb : nb (m + x) = nb m := by
    refine nb_unique hb1 (by omega) ?_
    obtain ⟨k, hk⟩ : ∃ k, nb m = k + 1 := ⟨nb m - 1, by omega⟩
    rw [hk, pow_succ] at hlt ⊢
    omega
  refine ⟨hnb, ?_⟩
  refine (HashTable.setLength_raw buf p m h1 (by omega) hs).mono ?_
  rintro buf' ⟨e1, e2, t, e3, e4, e5, e6, e7⟩
  have ht : nb m - t = 1 := by
    by_contra hc
    rcases Nat.lt_or_ge (nb m - t) 1 with h | h
    · have : nb m - t = 0 := by omega
      rw [this] at e5
      exact e5 (by simpa using Nat.dvd_of_mod_eq_zero hm)
    · obtain ⟨u, hu⟩ : ∃ u, nb m - t = u + 2 := ⟨nb m - t - 2, by omega⟩
      rw [hu] at e4
      have h3 : 256 ^ 2 ∣ m := Dvd.dvd.trans (pow_dvd_pow 256 (by omega)) e4
      obtain ⟨c, rfl⟩ := h3
      omega
  refine ⟨e1, ⟨by rw [hnb]; exact e2, ?_⟩, fun i hi => e7 i (by omega)⟩
  rw [hnb]
  intro j hj'
  by_cases hjt : j < t
  · rw [e6 j hjt]
    obtain ⟨k, hk⟩ : ∃ k, nb m - 1 - j = k + 1 := ⟨nb m - 1 - j - 1, by omega⟩
    rw [hk, pow_succ, Nat.mul_comm, ← Nat.div_div_eq_div_mul, ← Nat.div_div_eq_div_mul]
    congr 2
    omega
  · have hj2 : j = nb m - 1 := by omega
    rw [e7 _ (by omega), show p + 1 + j = p + nb m by omega, hj, show nb m - 1 - j = 0 by omega, pow_zero, Nat.div_one]
    omega

/-- Writing a record when the last byte of its length field holds `x`. -/
theorem writeRecord_last {buf T : Mem Nat} {p m x : Nat} (NB r : Nat) (hT : p + m ≤ T.size) (h1 : 1 ≤ m) (h2 : m < 2 ^ 62)
    (hs : r + 2 + nb m + m + NB + 12 ≤ buf.size) (hm : m % 256 = 0) (hm2 : m / 256 % 256 ≠ 0) (hx : x < 256)
    (hj : buf.data (r + nb m) = x) :
    Tot (HashTable.writeRecord NB buf T m p (nb m) r) (fun b => b.size = buf.size ∧ LenAt b r (m + x) ∧
      b.data (r + 1 + nb m) = (b.data (r + 2 + nb m) + 1) % 256 ∧
      ∀ i, r + 2 + nb m + m + NB ≤ i → i < r + 2 + nb m + m + NB + 12 → b.data i = 0) := by
  obtain ⟨hnb, hset⟩ := setLength_last buf r m x h1 h2 (by omega) hm hm2 hx hj
  unfold HashTable.writeRecord
  rw [Tot_bind]
  refine hset.mono ?_
  rintro b1 ⟨a1, a2, a3⟩
  simp only [Tot_bind, Mem.Tot_rd, Mem.Tot_wr]
  refine ⟨by omega, by omega, ?_⟩
  refine (loopUp_spec (fun i (b : Mem Nat) => b.size = buf.size ∧
    (∀ j, j < i → b.data (r + 2 + nb m + j) = T.data (p + j)) ∧
    ∀ j, (j < r + 2 + nb m ∨ r + 2 + nb m + i ≤ j) → 
      b.data j = (b1.upd (r + (1 + nb m)) ((T.data p + 1) % 256)).data j) 0 m _ _
    ⟨by simpa using a1, by intro j hj; omega, fun _ _ => rfl⟩ ?_).mono ?_
  · rintro i b _ i2 ⟨c1, c2, c3⟩
    simp only [Tot_bind, Mem.Tot_rd, Mem.Tot_wr]
    rw [show r + (1 + nb m) + 1 + i = r + 2 + nb m + i by omega]
    refine ⟨by omega, by omega, by simpa using c1, ?_, ?_⟩
    · intro j hj
      by_cases hji : j = i
      · subst hji; simp
      · rw [Mem.upd_data_ne _ _ (by omega)]; exact c2 j (by omega)
    · intro j hj
      rw [Mem.upd_data_ne _ _ (by omega)]; exact c3 j (by omega)
  · rintro b2 ⟨c1, c2, c3⟩
    rw [Nat.zero_add] at c2 c3
    refine (loopUp_spec (fun i (b : Mem Nat) => b.size = buf.size ∧
      (∀ j, j < i → b.data (r + 2 + nb m + m + NB + j) = 0) ∧
      ∀ j, j < r + 2 + nb m + m + NB → b.data j = b2.data j) 0 12 _ _
      ⟨by simpa using c1, by intro j hj; omega, fun _ _ => rfl⟩ ?_).mono ?_
    · rintro i b _ i2 ⟨d1, d2, d3⟩
      simp only [Mem.Tot_wr]
      rw [show r + (1 + nb m) + 1 + m + NB + i = r + 2 + nb m + m + NB + i by omega]
      refine ⟨by omega, by simpa using d1, ?_, ?_⟩
      · intro j hj
        by_cases hji : j = i
        · subst hji; simp
        · rw [Mem.upd_data_ne _ _ (by omega)]; exact d2 j (by omega)
      · intro j hj
        rw [Mem.upd_data_ne _ _ (by omega)]; exact d3 j (by omega)
    · rintro b3 ⟨d1, d2, d3⟩
      rw [Nat.zero_add] at d2
      refine ⟨d1, ?_, ?_, ?_⟩
      · refine a2.congr ?_
        intro i i1 i2
        rw [hnb] at i2
        rw [d3 _ (by omega), c3 _ (by omega), Mem.upd_data_ne _ _ (by omega)]
      · rw [d3 _ (by omega), c3 _ (by omega), show r + 1 + nb m = r + (1 + nb m) by omega, Mem.upd_data_self,
          d3 _ (by omega)]
        have := c2 0 (by omega)
        simp only [Nat.add_zero] at this
        rw [this]
      · intro i i1 i2
        have := d2 (i - (r + 2 + nb m + m + NB)) (by omega)
        rwa [show r + 2 + nb m + m + NB + (i - (r + 2 + nb m + m + NB)) = i by omega] at this

/-- A table with one record, at offset 1 in bucket `h`: it was written for a string of `m` bytes, but its length field says
`m + x`. -/
structure OneBad (ht : HashTable) (NB h m x : Nat) : Prop where
  hts : ht.htsize = 67777
  hlt : h < 67777
  nbs : ht.nameBytes = NB
  headsz : ht.head.size = 67777
  head : ht.head.data h = 1
  heads : ∀ k, k < 67777 → k ≠ h → ht.head.data k = 0
  bufsz : ht.buf.size = ht.bufsize
  small : ht.bufsize < 2 ^ 62
  big : 3 + nb m + m + NB + 12 ≤ ht.bufsize
  len : LenAt ht.buf 1 (m + x)
  sen : ht.buf.data (1 + 1 + nb m) = (ht.buf.data (1 + 2 + nb m) + 1) % 256
  fin : ht.buf.data (3 + nb m + m + NB + x) = 0

theorem OneBad.frame {ht ht' : HashTable} {NB h m x : Nat} (B : OneBad ht NB h m x) (hnb : nb (m + x) = nb m)
    (h1 : ht'.htsize = ht.htsize) (h2 : ht'.nameBytes = ht.nameBytes)
    (h3 : ht'.head = ht.head) (h4 : ht'.buf.size = ht'.bufsize) (h5 : ht.bufsize ≤ ht'.bufsize) (h6 : ht'.bufsize < 2 ^ 62)
    (h7 : ∀ i, i ≤ 3 + nb m → ht'.buf.data i = ht.buf.data i)
    (h8 : ht'.buf.data (3 + nb m + m + NB + x) = ht.buf.data (3 + nb m + m + NB + x)) : OneBad ht' NB h m x := by
  refine ⟨by rw [h1]; exact B.hts, B.hlt, by rw [h2]; exact B.nbs, by rw [h3]; exact B.headsz, by rw [h3]; exact B.head,
    by rw [h3]; exact B.heads, h4, h6, by have := B.big; omega, B.len.congr (fun i _ hi => h7 i (by rw [hnb] at hi; omega)), ?_, ?_⟩
  · rw [h7 _ (by omega), h7 _ (by omega)]; exact B.sen
  · rw [h8]; exact B.fin

/-- Inserting the first string into a new table. -/
theorem insert_last {junk : Fresh} {ht : HashTable} {T : Mem Nat} {m p x : Nat} (h1 : ht.htsize = 67777) (h2 : ht.hbsize = 512)
    (h3 : ht.rest.size = 67777) (h4 : ht.head.size = 67777) (h5 : ht.buf.size = 0) (h6 : ht.bufsize = 0)
    (h7 : ∀ k, ht.head.data k = 0) (h8 : ∀ k, k < 67777 → ht.rest.data k = 0) (h9 : ht.nameBytes ≤ 8)
    (hT : p + m ≤ T.size) (hm1 : 1 ≤ m) (hm62 : m < 2 ^ 60) (hroom : m + 600 ≤ junk.lim)
    (hm : m % 256 = 0) (hm2 : m / 256 % 256 ≠ 0) (hx : x ≤ 11) (hj : junk (1 + nb m) % 256 = x) :
    Tot (HashTable.insertString junk ht T m p) (fun r => r.2 = 1 ∧ OneBad r.1 ht.nameBytes (hashL 67777 (substr T p m)) m x ∧
      r.1.bufsize = 514 + nb m + m + ht.nameBytes) := by
  have hn8 := nb_le8 hm1 (show m < 2 ^ 64 by omega)
  have hnp := nb_pos m
  unfold HashTable.insertString
  rw [HashTable.hashFunction_eq _ _ _ _ (by omega) hT, ok_bind, h1]
  have hlt : hashL 67777 (substr T p m) < 67777 := HashTable.hashL_lt (by omega) _
  generalize hashL 67777 (substr T p m) = h at *
  rw [Mem.rd_ok _ (by omega), ok_bind, h7, h6]
  have e : whileM (0 + 2) (0, none, ht.collisions) (HashTable.insertStep ht.nameBytes ht.buf T m p) =
      .ok (.free 0 none ht.collisions) := by
    simp only [whileM, HashTable.insertStep, if_neg (show ¬ (0 : Nat) ≠ 0 by omega), ok_bind]
  rw [e, ok_bind]
  simp only
  rw [HashTable.calculateLenlen_eq hm1 (by omega), ok_bind]
  unfold HashTable.spaceRequired HashTable.makeRoom
  simp only
  obtain ⟨sp, hsp⟩ : ∃ sp, sp = 1 + 1 + nb m + m + ht.nameBytes := ⟨_, rfl⟩
  rw [← hsp, Mem.rd_ok _ (by omega), ok_bind, h8 h hlt]
  have hlim : HashTable.spaceLimit 0 = .ok (-12) := by
    unfold HashTable.spaceLimit
    rw [toI64_eq (by omega), addI64_ok (by omega) (by omega)]; rfl
  rw [hlim, ok_bind, toI64_eq (by omega), if_pos (by omega), h2]
  unfold reallocBytes
  rw [if_pos (by constructor <;> omega), ok_bind, Mem.wr_ok _ _ (by omega), ok_bind]
  unfold HashTable.linkBlock
  rw [if_pos (by rfl)]
  simp only
  rw [Mem.wr_ok _ _ (by omega), ok_bind, ok_bind, ok_bind]
  simp only
  refine Tot.bind (writeRecord_last (x := x) ht.nameBytes (0 + 1) hT hm1 (by omega) (by simp only; omega) hm hm2 (by omega) (by
    simp only
    rw [h5, if_neg (by omega), Nat.zero_add]; exact hj)) ?_
  rintro b ⟨b1, b2, b3, b4⟩
  simp only at b1
  rw [Mem.rd_ok _ (by simp only [Mem.upd_size]; omega), ok_bind, Mem.wr_ok _ _ (by simp only [Mem.upd_size]; omega), ok_bind, Tot_ok]
  refine ⟨rfl, ⟨rfl, hlt, rfl, by simp only [Mem.upd_size]; omega, by simp, ?_, by simp only; omega, by simp only; omega, by simp only; omega, b2, b3, ?_⟩, by simp only; omega⟩
  · intro k _ hk
    simp only
    rw [Mem.upd_data_ne _ _ hk]; exact h7 k
  · exact b4 _ (by omega) (by omega)

/-- `find_name` does not find the string. -/
theorem findName_last {ht : HashTable} {NB m x p : Nat} {T : Mem Nat} (B : OneBad ht NB (hashL 67777 (substr T p m)) m x)
    (hT : p + m ≤ T.size) (hm : 256 ≤ m) (hx1 : 1 ≤ x) (hx : x ≤ 11) (hnb : nb (m + x) = nb m) (hNB : NB ≤ 8) :
    HashTable.findName ht T m p = .error (.throw .runtimeError) := by
  have hbig := B.big
  have hsm := B.small
  have hbs := B.bufsz
  have hn8 := nb_le8 (show 1 ≤ m by omega) (show m < 2 ^ 64 by omega)
  have hhl := B.hlt
  unfold HashTable.findName
  rw [HashTable.hashFunction_eq _ _ _ _ (by rw [B.hts]; omega) hT, ok_bind, B.hts]
  rw [Mem.rd_ok _ (by rw [B.headsz]; exact hhl), ok_bind, B.head]
  have e0 : getLength ht.buf (3 + nb m + m + NB + x) = .ok 0 := by
    unfold getLength
    rw [Mem.rd_ok _ (by omega), ok_bind, B.fin, if_pos (by rfl)]
  have el : getLength ht.buf 1 = .ok (m + x) := getLength_eq B.len (by omega) (by omega) (by rw [hnb]; omega)
  have ed : HashTable.stringInfoLength ht.nameBytes ht.buf 1 (m + x) = .ok (2 + nb m + m + NB + x) := by
    unfold HashTable.stringInfoLength
    rw [Mem.rd_ok _ (by omega), ok_bind, B.len.1, hnb, B.nbs, addU64_eq (show nb m + (m + x) < 2 ^ 64 by omega),
      addU64_eq (show nb m + (m + x) + NB < 2 ^ 64 by omega), addU64_eq (by omega)]
    congr 1; omega
  have : whileM (ht.bufsize + 2) 1 (HashTable.findStep ht.nameBytes ht.buf T m p) = .ok none := by
    simp only [whileM, HashTable.findStep]
    rw [if_pos (by omega), el, ok_bind, if_neg (by omega), if_neg (by omega), if_pos (by omega), ed, ok_bind, ok_bind,
      addU64_eq (by omega), show 1 + (2 + nb m + m + NB + x) = 3 + nb m + m + NB + x by omega]
    simp only
    rw [if_pos (by omega), e0, ok_bind, if_pos (by rfl), ok_bind]
  rw [this, ok_bind]

/-- The walk over the table finds the one record. -/
theorem collect_last {ht : HashTable} {NB h m x : Nat} (B : OneBad ht NB h m x) (hm : 256 ≤ m) (hx : x ≤ 11)
    (hnb : nb (m + x) = nb m) (hNB : NB ≤ 8) (s : Mem Nat) (hs : s.size = 3) :
    HashTable.collect ht s 1 = .ok (s.upd 1 1, 2) := by
  have hbig := B.big
  have hsm := B.small
  have hbs := B.bufsz
  have hhl := B.hlt
  have hn8 := nb_le8 (show 1 ≤ m by omega) (show m < 2 ^ 64 by omega)
  apply Tot.eq_ok
  unfold HashTable.collect
  rw [B.hts]
  have e0 : getLength ht.buf (3 + nb m + m + NB + x) = .ok 0 := by
    unfold getLength
    rw [Mem.rd_ok _ (by omega), ok_bind, B.fin, if_pos (by rfl)]
  have el : getLength ht.buf 1 = .ok (m + x) := getLength_eq B.len (by omega) (by omega) (by rw [hnb]; omega)
  have ed : HashTable.stringInfoLength ht.nameBytes ht.buf 1 (m + x) = .ok (2 + nb m + m + NB + x) := by
    unfold HashTable.stringInfoLength
    rw [Mem.rd_ok _ (by omega), ok_bind, B.len.1, hnb, B.nbs, addU64_eq (show nb m + (m + x) < 2 ^ 64 by omega),
      addU64_eq (show nb m + (m + x) + NB < 2 ^ 64 by omega), addU64_eq (by omega)]
    congr 1; omega
  refine (loopUp_spec (fun k (st : Mem Nat × Nat) => st = if k ≤ h then (s, 1) else (s.upd 1 1, 2)) 0 67777 _ _
    (by rw [if_pos (by omega)]) ?_).mono ?_
  · rintro k st _ k2 rfl
    rw [Mem.rd_ok _ (by rw [B.headsz]; omega), ok_bind]
    by_cases hk : k = h
    · subst hk
      rw [B.head, if_pos (Nat.le_refl _), if_neg (by omega)]
      simp only [whileM, HashTable.collectStep]
      rw [if_pos (by omega), el, ok_bind, if_neg (by omega), if_neg (by omega), Mem.wr_ok _ _ (by omega), ok_bind, ed, ok_bind, ok_bind,
        addU64_eq (by omega), show 1 + (2 + nb m + m + NB + x) = 3 + nb m + m + NB + x by omega]
      simp only
      rw [if_pos (by omega), e0, ok_bind, if_pos (by rfl), ok_bind, Tot_ok]
    · rw [B.heads k (by omega) hk]
      have : (if k ≤ h then (s, 1) else (s.upd 1 1, 2)) = (if k + 1 ≤ h then (s, 1) else (s.upd 1 1, 2)) := by
        by_cases h1 : k ≤ h
        · rw [if_pos h1, if_pos (by omega)]
        · rw [if_neg h1, if_neg (by omega)]
      rw [this]
      simp only [whileM, HashTable.collectStep, if_neg (show ¬ (0 : Nat) ≠ 0 by omega), ok_bind, Tot_ok]
  · rintro st rfl
    rw [if_neg (by omega)]

/-! ## The scan -/

theorem bump_size_ok {a : Mem Nat} {i : Nat} (h : i < a.size) : Tot (bump a i) (fun b => b.size = a.size) := by
  unfold bump
  rw [Mem.rd_ok _ h, ok_bind, Mem.wr_ok _ _ h, Tot_ok]
  rfl

/-- The state of `extract_LMS_strings` when the positions from `i` on have been visited, for a text whose only S* position is
`p`: nothing has been inserted before `p` was reached, and a table with a bad record is there after that. -/
structure OneInv (T : Nat → Nat) (n p : Nat) (H0 : HashTable) (Q : HashTable → Prop) (i : Nat) (s : ExSt) : Prop where
  M : s.M.size = 258
  NL : s.NL.size = 258
  C : s.C.size = 258
  prev : s.prev = if isS T n i = true then TYPE_S else TYPE_L
  st : (p ≤ i ∧ s.q = n ∧ s.ht = H0 ∧ s.numSubs = 0 ∧ s.numUnique = 0) ∨
    (i < p ∧ s.p = p ∧ Q s.ht ∧ s.numSubs = 1 ∧ s.numUnique = 1)

theorem exStep_last {T : Mem Nat} {n p : Nat} (I : Input T n) {junk : Fresh} (hp : isLMS T.data n p)
    (huniq : ∀ q, isLMS T.data n q → q = p) {H0 : HashTable} {Q : HashTable → Prop}
    (hins : Tot (HashTable.insertString junk H0 T (n - p + 1) p) (fun r => r.2 = 1 ∧ Q r.1)) {i : Nat} (hi : i + 1 < n) {s : ExSt}
    (g : OneInv T.data n p H0 Q (i + 1) s) : Tot (exStep junk T i s) (OneInv T.data n p H0 Q i) := by
  have hn := I.nlt
  have hsz := I.size
  have hbi := I.byte i (by omega)
  have hbi1 := I.byte (i + 1) (by omega)
  have gM := g.M
  have gNL := g.NL
  have gC := g.C
  have hpn := hp.2.1
  unfold exStep
  rw [Mem.rd_ok _ (by omega), ok_bind, Mem.rd_ok _ (by omega), ok_bind]
  refine Tot.bind (bump_size_ok (by omega)) ?_
  intro M' hM'
  have same : ¬ isLMS T.data n (i + 1) → ∀ (NL' : Mem Nat) (pv : Nat), NL'.size = 258 →
      pv = (if isS T.data n i = true then TYPE_S else TYPE_L) →
      OneInv T.data n p H0 Q i { s with M := M', NL := NL', prev := pv } := by
    intro hnl NL' pv h1 h2
    refine ⟨by simp only; omega, h1, gC, h2, ?_⟩
    rcases g.st with ⟨a, b⟩ | ⟨a, b⟩
    · refine Or.inl ⟨?_, b⟩
      have : p ≠ i + 1 := fun h => hnl (h ▸ hp)
      omega
    · exact Or.inr ⟨by omega, b⟩
  by_cases h1 : T.data i < T.data (i + 1)
  · rw [if_pos h1, Tot_ok]
    have hS : isS T.data n i = true := (S_iff (by omega)).2 ⟨hi, Or.inl h1⟩
    have hnl : ¬ isLMS T.data n (i + 1) := fun hl => by
      have := hl.2.2.2; rw [show i + 1 - 1 = i by omega, hS] at this; exact absurd this (by simp)
    exact same hnl s.NL TYPE_S gNL (by rw [hS]; rfl)
  · rw [if_neg h1]
    by_cases h2 : T.data (i + 1) < T.data i
    · rw [if_pos h2]
      have hSi : isS T.data n i = false := (L_iff (by omega)).2 (Or.inr ⟨hi, Or.inl h2⟩)
      have hprev := g.prev
      unfold exMaybe
      simp only
      cases hS : isS T.data n (i + 1) with
      | true =>
        rw [hS] at hprev
        simp only [if_true] at hprev
        rw [if_pos hprev]
        have hl : isLMS T.data n (i + 1) := ⟨by omega, hi, hS, by simpa using hSi⟩
        have hip := huniq _ hl
        obtain ⟨_, b2, b3, b4, b5⟩ : p ≤ i + 1 ∧ s.q = n ∧ s.ht = H0 ∧ s.numSubs = 0 ∧ s.numUnique = 0 := by
          rcases g.st with a | a
          · exact a
          · omega
        unfold exFound
        simp only
        rw [Mem.rd_ok _ (by omega), ok_bind]
        simp only [Tot_bind]
        refine (bump_size_ok (show T.data (i + 1) + 1 < s.C.size by omega)).mono ?_
        intro C' hC'
        rw [b2, b3, subU64_eq (by omega), addU64_eq (by omega), hip]
        refine hins.mono ?_
        rintro ⟨ht', k⟩ ⟨rfl, hQ⟩
        simp only [Tot_ok]
        refine (bump_size_ok (show T.data i + 1 < s.NL.size by omega)).mono ?_
        intro NL' hNL'
        refine ⟨by simp only; omega, by simp only; omega, by simp only; omega, by simp only [hSi]; rfl, Or.inr ⟨by omega, ?_, hQ, ?_, ?_⟩⟩
        · rfl
        · simp only; omega
        · simp only [b5]; rfl
      | false =>
        rw [hS] at hprev
        simp only [Bool.false_eq_true, if_false] at hprev
        rw [if_neg (by rw [hprev]; decide), ok_bind]
        simp only
        refine Tot.bind (bump_size_ok (by omega)) ?_
        intro NL' hNL'
        have hnl : ¬ isLMS T.data n (i + 1) := fun hl => by rw [hl.2.2.1] at hS; exact absurd hS (by simp)
        rw [Tot_ok]
        exact same hnl NL' TYPE_L (by omega) (by rw [hSi]; rfl)
    · rw [if_neg h2]
      have heq : T.data i = T.data (i + 1) := by omega
      have hS := isS_succ_same hi heq
      have hnl : ¬ isLMS T.data n (i + 1) := fun hl => by
        have h3 := hl.2.2.2
        rw [show i + 1 - 1 = i by omega, hS, hl.2.2.1] at h3; exact absurd h3 (by simp)
      split
      · refine Tot.bind (bump_size_ok (by omega)) ?_
        intro NL' hNL'
        rw [Tot_ok]
        exact same hnl NL' s.prev (by omega) (by rw [hS]; exact g.prev)
      · rw [Tot_ok]
        exact same hnl s.NL s.prev gNL (by rw [hS]; exact g.prev)

/-- `extract_LMS_strings` on a text with one S* position whose substring is stored with a wrong length. -/
theorem extract_last {T : Mem Nat} {n p x : Nat} (I : Input T n) {junk : Fresh} (hp : isLMS T.data n p)
    (huniq : ∀ q, isLMS T.data n q → q = p) (hroom : enoughFor n ≤ junk.lim) (hm : (n - p + 1) % 256 = 0)
    (hm2 : (n - p + 1) / 256 % 256 ≠ 0) (hx : x ≤ 11) (hj : junk (1 + nb (n - p + 1)) % 256 = x) :
    Tot (extractLMS junk T n) (fun ct => ∃ ht, ct.hashtable = some ht ∧ ct.numSubs = 1 ∧ ct.numUnique = 1 ∧ ct.headEnd = p ∧
      ht.nameBytes ≤ 8 ∧ OneBad ht ht.nameBytes (hashL 67777 (substr T p (n - p + 1))) (n - p + 1) x ∧
      ht.bufsize = 514 + nb (n - p + 1) + (n - p + 1) + ht.nameBytes) := by
  have hn := I.nlt
  have hn3 := I.n3
  have hsz := I.size
  have hpn := hp.2.1
  have hbn := I.byte (n - 1) (by omega)
  obtain ⟨H0, e0, t0, hh1, hh2, hh3, hh4, _, hh5, hh6⟩ := Tot_iff.1 (HashTable.new_tab 67777 n (by omega) (by omega))
  have hr0 : ∀ k, k < 67777 → H0.rest.data k = 0 := fun k hk => (t0.empty k (by omega) (hh4 k)).2
  have hr1 := t0.restsz
  have hr2 := t0.headsz
  unfold enoughFor at hroom
  have hins := insert_last (junk := junk) (ht := H0) (T := T) (m := n - p + 1) (p := p) (x := x) hh1 t0.hb (by omega) (by omega)
    hh3 hh2 hh4 hr0 hh6 (by omega) (by omega) (by omega) (by omega) hm hm2 hx hj
  unfold extractLMS
  rw [if_neg (by omega), e0, ok_bind]
  refine Tot.bind (bump_size_ok (show 0 < 258 by omega)) (fun M1 hM1 => ?_)
  rw [Mem.rd_ok _ (by omega), ok_bind]
  have z1 : (Container.new n).M.size = 258 := rfl
  have z2 : (Container.new n).NL.size = 258 := rfl
  have z3 : (Container.new n).C.size = 258 := rfl
  refine Tot.bind (bump_size_ok (by omega)) (fun M2 hM2 => ?_)
  refine Tot.bind (bump_size_ok (by omega)) (fun NL1 hNL1 => ?_)
  refine Tot.bind (bump_size_ok (by omega)) (fun C1 hC1 => ?_)
  refine Tot.bind (loopDown_spec (OneInv T.data n p H0 (fun ht => OneBad ht H0.nameBytes (hashL 67777 (substr T p (n - p + 1))) (n - p + 1) x ∧
    ht.bufsize = 514 + nb (n - p + 1) + (n - p + 1) + H0.nameBytes)) (n - 1) _ _ ⟨by simp only; omega, by simp only; omega, by simp only; omega,
    by rw [isS_last (by omega)]; rfl, Or.inl ⟨by omega, rfl, rfl, rfl, rfl⟩⟩
    (fun i s h1 h2 => exStep_last I hp huniq hins (by omega) h2)) ?_
  intro s g
  have hp0 := hp.1
  obtain ⟨_, a2, a3, a4, a5⟩ : 0 < p ∧ s.p = p ∧ (OneBad s.ht H0.nameBytes _ _ x ∧ _) ∧ s.numSubs = 1 ∧ s.numUnique = 1 := by
    rcases g.st with a | a
    · omega
    · exact a
  rw [Tot_ok]
  have hnbs := a3.1.nbs
  exact ⟨s.ht, rfl, a4, a5, a2, by omega, by rw [hnbs]; exact a3.1, by rw [hnbs]; exact a3.2⟩

/-! ## Sorting one string -/

theorem sort_last {T : Mem Nat} {n p m x h : Nat} (hTs : n + 1 ≤ T.size) (hpn : p < n) (hn57 : n < 2 ^ 57) {junk : Fresh}
    (hroom : enoughFor n ≤ junk.lim) {sorter : Sorter}
    (hsort : SortsOK sorter) (pj : Nat → Nat) {ct : Container} {ht : HashTable} (c1 : ct.hashtable = some ht)
    (c3 : ct.numUnique = 1) (c4 : ct.headEnd = p) (hN8 : ht.nameBytes ≤ 8) (B : OneBad ht ht.nameBytes h m x)
    (hbsz : ht.bufsize = 514 + nb m + m + ht.nameBytes) (hmn : m ≤ n + 1) (hp256 : (p + 1) % 256 ≠ 0) (hm256 : 256 ≤ m) (hx : x ≤ 11)
    (hnb : nb (m + x) = nb m) :
    Tot (sortLMS sorter pj junk T ct) (fun r => ∃ ht', r.2.hashtable = some ht' ∧ OneBad ht' ht.nameBytes h m x ∧
      r.2.numSubs = ct.numSubs ∧ r.2.numUnique = 1) := by
  have hn8 := nb_le8 (show 1 ≤ m by omega) (show m < 2 ^ 64 by omega)
  have hnp8 := nb_le8 (show 1 ≤ p + 1 by omega) (show p + 1 < 2 ^ 64 by omega)
  unfold enoughFor at hroom
  unfold sortLMS
  rw [c1]
  simp only
  unfold sortNames
  simp only
  rw [c3, c4, HashTable.calculateLenlen_eq (by omega) (by omega), ok_bind]
  obtain ⟨space, hspace⟩ : ∃ y, y = 1 + 1 + nb (p + 1) + (p + 1) + ht.nameBytes + (1 + 1 + 1 + 1 + ht.nameBytes) := ⟨_, rfl⟩
  rw [← hspace]
  unfold reallocBytes
  rw [if_pos (by constructor <;> omega), ok_bind]
  have hbs := B.bufsz
  obtain ⟨buf1, hbuf1⟩ : ∃ b : Mem Nat, b = ⟨ht.bufsize + space, fun i => if i < ht.buf.size then ht.buf.data i else junk i % 256⟩ := ⟨_, rfl⟩
  rw [← hbuf1]
  have hb1s : buf1.size = ht.bufsize + space := by rw [hbuf1]
  have hb1d : ∀ i, i < ht.bufsize → buf1.data i = ht.buf.data i := by
    intro i hi; rw [hbuf1]; simp only; rw [if_pos (by omega)]
  have B1 : OneBad { ht with buf := buf1, bufsize := ht.bufsize + space } ht.nameBytes h m x :=
    B.frame hnb rfl rfl rfl hb1s (by simp only; omega) (by simp only; omega) (fun i hi => hb1d i (by omega)) (hb1d _ (by omega))
  rw [collect_last B1 hm256 hx hnb hN8 _ rfl, ok_bind]
  simp only
  rw [subU64_eq (by omega), readRange_eq (by simp only [Mem.upd_size]; omega), ok_bind]
  have hl1 : ((List.range (2 - 1)).map fun i => ((⟨1 + 2, pj⟩ : Mem Nat).upd 1 1).data (i + 1)) = [1] := by
    simp [List.range_succ]
  rw [hl1]
  -- the one record is not smaller than itself
  have hrec : HashTable.RecAt buf1 1 ((List.range (m + x)).map fun j => buf1.data (1 + 2 + nb m + j)) := by
    refine ⟨by simpa using B1.len, ?_, ?_⟩
    · simp only [List.length_map, List.length_range]
      rw [hnb]
      have : ((List.range (m + x)).map fun j => buf1.data (1 + 2 + nb m + j)).getD 0 0 = buf1.data (1 + 2 + nb m) := by
        rw [List.getD_eq_getElem?_getD, List.getElem?_eq_getElem (by simp; omega)]
        simp
      rw [this]
      exact B1.sen
    · intro j hj
      simp only [List.length_map, List.length_range] at hj ⊢
      rw [hnb, List.getD_eq_getElem?_getD, List.getElem?_eq_getElem (by simp; omega)]
      simp
  have hcmp : lmsCompare buf1 1 1 = .ok false := by
    rw [← lmsLt_irrefl ((List.range (m + x)).map fun j => buf1.data (1 + 2 + nb m + j))]
    exact lmsCompare_eq hrec hrec (by simp; omega) (by simp; omega) (by simp; omega) (by simp; omega)
      (by unfold HashTable.bodyLen; simp only [List.length_map, List.length_range]; rw [hnb]; omega)
      (by unfold HashTable.bodyLen; simp only [List.length_map, List.length_range]; rw [hnb]; omega)
  obtain ⟨l', hl', hperm, _⟩ := hsort (lmsCompare buf1) (fun _ _ => false) [1] (by
      intro a ha b hb
      rw [List.mem_singleton] at ha hb
      rw [ha, hb]; exact hcmp) ⟨fun _ _ => rfl, fun _ _ _ _ _ _ h _ => absurd h (by simp), fun _ _ _ _ _ _ _ _ => rfl⟩
  have hl1' : l' = [1] := List.perm_singleton.1 hperm
  subst hl1'
  rw [hl', ok_bind]
  obtain ⟨s2, e2, s2sz, s2d⟩ := Tot_iff.1 (writeRange_tot (s := (⟨1 + 2, pj⟩ : Mem Nat).upd 1 1) (l := [1]) (by simp))
  simp only [Mem.upd_size] at s2sz
  have s21 : s2.data 1 = 1 := by simpa using s2d 0 (by simp)
  rw [e2, ok_bind]
  unfold setNamesLoop
  have hnl := HashTable.setName_tot (buf := buf1) (p := 1) ht.nameBytes 1 B1.len (by omega) (by omega) (by rw [hnb]; omega)
  obtain ⟨buf2, e3, b2s, _, b2d⟩ := Tot_iff.1 hnl
  rw [hnb] at b2d
  have e4 : loopUp 1 (2 - 1) buf1 (fun i buf => do
      let q ← s2.rd i
      HashTable.setName ht.nameBytes buf q i) = .ok buf2 := by
    simp only [show 2 - 1 = 0 + 1 by rfl, loopUp]
    rw [Mem.rd_ok _ (by omega), ok_bind, s21, e3, ok_bind]
  rw [e4, ok_bind, ok_bind]
  have B2 : OneBad { ht with buf := buf2, bufsize := ht.bufsize + space } ht.nameBytes h m x :=
    B1.frame hnb rfl rfl rfl (by simp only; omega) (by simp only; omega) (by simp only; omega) (fun i hi => b2d i (by omega))
      (b2d _ (by omega))
  unfold sortHead
  simp only
  rw [c3, c4, Mem.wr_ok _ _ (by omega), ok_bind]
  refine Tot.bind (writeHead_spec (NB := ht.nameBytes) (T := T) (h := p) (u := 1) (buf := buf2) (r := ht.bufsize)
    (by omega) (by omega) (by omega) (Or.inl hp256)) ?_
  rintro ⟨buf3, lp, r0⟩ ⟨d1, d2, d3, _, d5⟩
  simp only at d1 d2 d3 d5
  simp only
  rw [Mem.wr_ok _ _ (by simp only [Mem.upd_size]; omega), ok_bind]
  refine Tot.bind (writeEnd_spec (NB := ht.nameBytes) (buf := buf3) (r := r0) (by omega)) ?_
  rintro buf4 ⟨f1, f2, f3⟩
  obtain ⟨s, hs⟩ : ∃ s : Mem Nat, s = (s2.upd (1 + 1) ht.bufsize).upd 0 r0 := ⟨_, rfl⟩
  rw [← hs]
  have hss : s.size = 3 := by rw [hs]; simp only [Mem.upd_size]; omega
  have hs0 : s.data 0 = r0 := by rw [hs, Mem.upd_data_self]
  have hs1 : s.data 1 = 1 := by rw [hs, Mem.upd_data_ne _ _ (by omega), Mem.upd_data_ne _ _ (by omega), s21]
  have hs2 : s.data 2 = ht.bufsize := by rw [hs, Mem.upd_data_ne _ _ (by omega), Mem.upd_data_self]
  refine Tot.bind (minMax_spec (s := s) (u := 1) (by omega) (by
    intro i hi
    have h3 : i = 0 ∨ i = 1 ∨ i = 2 := by omega
    rcases h3 with rfl | rfl | rfl
    · exact Nat.le_refl _
    · omega
    · omega)) ?_
  rintro ⟨mn, mx⟩ ⟨g1, g2, _⟩
  simp only at g1 g2
  have hmn := g2 0 (by omega)
  obtain ⟨w, ew, _⟩ := Tot_iff.1 (positionOfMsb_spec (mx - mn + 2) (by omega) (by omega))
  have hn1 : nb 1 = 1 := HashTable.nb_small (by omega) (by omega)
  simp only
  rw [subU64_eq (show mn ≤ mx by omega), ew, ok_bind, g1, hs0, getLength_eq f2 (by omega) (by omega) (by omega), ok_bind]
  unfold HashTable.getFirstCharacterPointer
  rw [Mem.rd_ok _ (by omega), ok_bind, ok_bind, Tot_ok]
  refine ⟨_, rfl, B2.frame hnb rfl rfl rfl (by simp only; omega) (by simp only; omega) (by simp only; omega) (fun i hi => ?_) ?_, rfl, rfl⟩
  · simp only
    rw [f3 i (by omega), d5 i (by omega)]
  · simp only
    rw [f3 _ (by omega), d5 _ (by omega)]

/-! ## The shortened string -/

/-- A loop that reaches iteration `i` with the invariant and fails there. -/
theorem loopDown_error {σ : Type} {f : Nat → σ → M σ} {e : Err} (Inv : Nat → σ → Prop) (i : Nat) : ∀ (hi : Nat) (s : σ), i < hi →
    Inv hi s → (∀ k s, i < k → k < hi → Inv (k + 1) s → Tot (f k s) (Inv k)) → (∀ s, Inv (i + 1) s → f i s = .error e) →
    loopDown hi s f = .error e := by
  intro hi
  induction hi with
  | zero => intro s h; omega
  | succ hi ih =>
    intro s h h0 hs he
    rw [loopDown]
    by_cases hih : i = hi
    · subst hih
      rw [he s h0]; rfl
    · obtain ⟨s', e', h'⟩ := Tot_iff.1 (hs hi s (by omega) (by omega) h0)
      rw [e', ok_bind]
      exact ih s' (by omega) h' (fun k s h1 h2 => hs k s h1 (by omega)) he

theorem short_last {T : Mem Nat} {n p x h : Nat} (I : Input T n) (hp : isLMS T.data n p)
    (huniq : ∀ q, isLMS T.data n q → q = p) (tj : Nat → BitVec 64) (sj : BitVec 64) {ct : Container} {ht : HashTable} {NB : Nat}
    (c1 : ct.hashtable = some ht) (c2 : ct.numSubs = 1) (c3 : ct.numUnique = 1)
    (hh : h = hashL 67777 (substr T p (n - p + 1))) (B : OneBad ht NB h (n - p + 1) x) (hm256 : 256 ≤ n - p + 1) (hx1 : 1 ≤ x)
    (hx : x ≤ 11) (hnb : nb (n - p + 1 + x) = nb (n - p + 1)) (hNB : NB ≤ 8) :
    createShortened tj sj T n ct = .error (.throw .runtimeError) := by
  have hn := I.nlt
  have hsz := I.size
  obtain ⟨hp0, hpn, hpS, hpL⟩ := hp
  unfold createShortened
  rw [c1]
  simp only
  rw [c2, c3]
  obtain ⟨bits, eb, b1, b2, b3, b4⟩ := Tot_iff.1 (positionOfMsb_spec (1 + 1) (by omega) (by omega))
  have hwf : (PackedArray.new (1 + 2) bits tj).WF := PackedArray.new_wf _ _ _ b1 b2 (by omega)
  obtain ⟨T1, e1, _⟩ := Tot_iff.1 (PackedArray.setValue_tot hwf sj (i := 1 + 2 - 1) (by simp only [PackedArray.new]; omega) 0 (by simp))
  rw [eb, ok_bind, e1, ok_bind]
  have hfind := findName_last (T := T) (p := p) (hh ▸ B) (by omega) hm256 hx1 hx hnb hNB
  have hloop : ∀ s0 : ShSt, s0.prev = TYPE_L → s0.q = n → loopDown (n - 1) s0 (shStep sj ht T) = .error (.throw .runtimeError) := by
    intro s0 h0 h1
    refine loopDown_error (fun i (s : ShSt) => s.prev = (if isS T.data n i = true then TYPE_S else TYPE_L) ∧ s.q = n) (p - 1) _ _
      (by omega) ⟨by rw [isS_last (by omega)]; exact h0, h1⟩ ?_ ?_
    · rintro k s k1 k2 ⟨g1, g2⟩
      have hnl : ¬ isLMS T.data n (k + 1) := fun hl => by have := huniq _ hl; omega
      unfold shStep
      rw [Mem.rd_ok _ (by omega), ok_bind, Mem.rd_ok _ (by omega), ok_bind]
      by_cases h1 : T.data k < T.data (k + 1)
      · rw [if_pos h1, Tot_ok]
        have hS : isS T.data n k = true := (S_iff (by omega)).2 ⟨by omega, Or.inl h1⟩
        exact ⟨by rw [hS]; rfl, g2⟩
      · rw [if_neg h1]
        by_cases h2 : T.data (k + 1) < T.data k
        · rw [if_pos h2]
          have hSk : isS T.data n k = false := (L_iff (by omega)).2 (Or.inr ⟨by omega, Or.inl h2⟩)
          have hS1 : isS T.data n (k + 1) = false := by
            cases hS : isS T.data n (k + 1) with
            | false => rfl
            | true => exact absurd ⟨by omega, by omega, hS, by simpa using hSk⟩ hnl
          rw [hS1] at g1
          unfold shMaybe
          rw [if_neg (by rw [g1]; decide), ok_bind, Tot_ok]
          exact ⟨by rw [hSk]; rfl, g2⟩
        · rw [if_neg h2, Tot_ok]
          have hS := isS_succ_same (T := T.data) (n := n) (show k + 1 < n by omega) (by omega)
          exact ⟨by rw [hS]; exact g1, g2⟩
    · rintro s ⟨g1, g2⟩
      rw [show p - 1 + 1 = p by omega] at g1
      have hd : T.data p < T.data (p - 1) := by
        have hL : isS T.data n (p - 1) = false := by simpa using hpL
        rcases (L_iff (by omega)).1 hL with h3 | ⟨_, h3 | ⟨h3, h4⟩⟩
        · omega
        · rwa [show p - 1 + 1 = p by omega] at h3
        · rw [show p - 1 + 1 = p by omega, hpS] at h4; exact absurd h4 (by simp)
      unfold shStep
      rw [Mem.rd_ok _ (by omega), ok_bind, Mem.rd_ok _ (by omega), ok_bind, show p - 1 + 1 = p by omega, if_neg (by omega), if_pos hd]
      rw [hpS] at g1
      unfold shMaybe
      rw [if_pos (by rw [g1]; rfl), show p - 1 + 1 = p by omega, g2, subU64_eq (by omega), addU64_eq (by omega), hfind]
      rfl
  rw [hloop _ rfl rfl]
  rfl

end Flbwt
