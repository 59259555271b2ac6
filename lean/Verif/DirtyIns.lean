import Verif.DirtyTab
import Verif.PropsMisuse

/-!
# `insert_string` on a table with poisoned buckets (used by C93)
-/

namespace Flbwt
namespace HashTable

/-- The table without its poisoned buckets. Used in proofs only. -/
def clean (ht : HashTable) (bad : Nat → Bool) : HashTable :=
  { ht with head := ⟨ht.head.size, fun k => if bad k then 0 else ht.head.data k⟩,
            rest := ⟨ht.rest.size, fun k => if bad k then 0 else ht.rest.data k⟩ }

theorem clean_wr {d : Nat → Nat} {z : Nat} {bad : Nat → Bool} {h v : Nat} (hh : bad h = false) :
    (⟨z, fun k => if bad k then 0 else d k⟩ : Mem Nat).wr h v =
      ((⟨z, d⟩ : Mem Nat).wr h v >>= fun a => .ok ⟨a.size, fun k => if bad k then 0 else a.data k⟩) := by
  unfold Mem.wr
  by_cases hz : h < z
  · rw [if_pos hz, if_pos hz, ok_bind]
    congr 1
    unfold Mem.upd
    congr 1
    funext k
    by_cases hk : k = h
    · subst hk; simp [hh]
    · simp [hk]
  · rw [if_neg hz, if_neg hz]
    rfl

/-- The result with its poisoned buckets removed. -/
def cleanRes (bad : Nat → Bool) (r : HashTable × Nat) : HashTable × Nat := (r.1.clean bad, r.2)

theorem linkBlock_clean {ht : HashTable} {bad : Nat → Bool} {h q q2 : Nat} {r : Option Nat} (hh : bad h = false) :
    linkBlock (ht.clean bad) h q r q2 = (linkBlock ht h q r q2 >>= fun a => .ok (a.clean bad)) := by
  unfold linkBlock
  by_cases hq : q = 0
  · rw [if_pos hq, if_pos hq]
    show ((⟨ht.head.size, fun k => if bad k then 0 else ht.head.data k⟩ : Mem Nat).wr h q2 >>= _) = _
    rw [clean_wr hh]
    cases ht.head.wr h q2 <;> rfl
  · rw [if_neg hq, if_neg hq]
    cases r with
    | none => rfl
    | some pp =>
      dsimp only
      show (setPointer ht.buf pp q2 >>= _) = _
      cases setPointer ht.buf pp q2 <;> rfl

theorem makeRoom_clean {ht : HashTable} {bad : Nat → Bool} {junk : Fresh} {h q space : Nat} {r : Option Nat} (hh : bad h = false) :
    makeRoom junk (ht.clean bad) h q r space = (makeRoom junk ht h q r space >>= fun a => .ok (cleanRes bad a)) := by
  unfold makeRoom
  have e1 : (ht.clean bad).rest.rd h = ht.rest.rd h := by
    unfold Mem.rd clean
    simp [hh]
  rw [e1]
  cases ht.rest.rd h with
  | error e => rfl
  | ok rest =>
    rw [ok_bind, ok_bind]
    cases spaceLimit rest with
    | error e => rfl
    | ok lim =>
      rw [ok_bind, ok_bind]
      by_cases hl : toI64 space ≥ lim
      · rw [if_pos hl, if_pos hl]
        show (reallocBytes junk ht.buf (ht.bufsize + ht.hbsize + space) >>= _) = _
        cases reallocBytes junk ht.buf (ht.bufsize + ht.hbsize + space) with
        | error e => rfl
        | ok b =>
          rw [ok_bind, ok_bind]
          show ((⟨ht.rest.size, fun k => if bad k then 0 else ht.rest.data k⟩ : Mem Nat).wr h (ht.hbsize + space) >>= _) = _
          rw [clean_wr hh]
          show (ht.rest.wr h _ >>= _) >>= _ = _
          cases ht.rest.wr h (ht.hbsize + space) with
          | error e => rfl
          | ok rs =>
            rw [ok_bind, ok_bind, ok_bind]
            show (linkBlock (clean { ht with buf := b, bufsize := ht.bufsize + (ht.hbsize + space), rest := rs } bad) h q r (ht.bufsize + 1) >>= _) = _
            rw [linkBlock_clean hh]
            dsimp only
            cases linkBlock { ht with buf := b, bufsize := ht.bufsize + (ht.hbsize + space), rest := rs } h q r (ht.bufsize + 1) <;> rfl
      · rw [if_neg hl, if_neg hl]
        cases r <;> rfl

/-- Poisoned buckets do not matter for a string of another bucket. -/
theorem insert_clean {ht : HashTable} {bad : Nat → Bool} {junk : Fresh} {T : Mem Nat} {m p : Nat} (h0 : 0 < ht.htsize)
    (hT : p + m ≤ T.size) (hh : bad (hashL ht.htsize (substr T p m)) = false) :
    insertString junk (ht.clean bad) T m p = (insertString junk ht T m p >>= fun a => .ok (cleanRes bad a)) := by
  unfold insertString
  show (hashFunction ht.htsize T m p >>= _) = _
  rw [hashFunction_eq _ _ _ _ h0 hT, ok_bind, ok_bind]
  generalize hashL ht.htsize (substr T p m) = h at *
  have e1 : (ht.clean bad).head.rd h = ht.head.rd h := by
    unfold Mem.rd clean
    simp [hh]
  rw [e1]
  cases ht.head.rd h with
  | error e => rfl
  | ok q =>
    rw [ok_bind, ok_bind]
    show (whileM (ht.bufsize + 2) (q, none, ht.collisions) (insertStep ht.nameBytes ht.buf T m p) >>= _) = _
    cases whileM (ht.bufsize + 2) (q, none, ht.collisions) (insertStep ht.nameBytes ht.buf T m p) with
    | error e => rfl
    | ok res =>
      rw [ok_bind, ok_bind]
      cases res with
      | dup c => rfl
      | free q r c =>
        dsimp only
        cases calculateLenlen m with
        | error e => rfl
        | ok ll =>
          rw [ok_bind, ok_bind]
          show (makeRoom junk (clean { ht with collisions := c } bad) h q r (spaceRequired ll m ht.nameBytes) >>= _) = _
          rw [makeRoom_clean hh]
          cases makeRoom junk { ht with collisions := c } h q r (spaceRequired ll m ht.nameBytes) with
          | error e => rfl
          | ok x =>
            rw [ok_bind, ok_bind, ok_bind]
            show (writeRecord x.1.nameBytes x.1.buf T m p ll x.2 >>= _) = _
            cases writeRecord x.1.nameBytes x.1.buf T m p ll x.2 with
            | error e => rfl
            | ok b =>
              rw [ok_bind, ok_bind]
              have e2 : (cleanRes bad x).1.rest.rd h = x.1.rest.rd h := by
                unfold Mem.rd cleanRes clean
                simp [hh]
              rw [e2]
              cases x.1.rest.rd h with
              | error e => rfl
              | ok rs =>
                rw [ok_bind, ok_bind]
                show ((⟨x.1.rest.size, fun k => if bad k then 0 else x.1.rest.data k⟩ : Mem Nat).wr h _ >>= _) = _
                rw [clean_wr hh]
                show ((x.1.rest.wr h (subU64 rs (spaceRequired ll m ht.nameBytes)) >>= _) >>= _) = _
                cases x.1.rest.wr h (subU64 rs (spaceRequired ll m ht.nameBytes)) <;> rfl

/-- `insert_string` leaves the other entries of `head` alone. -/
theorem insert_head {ht : HashTable} {junk : Fresh} {T : Mem Nat} {m p : Nat} (h0 : 0 < ht.htsize) (hT : p + m ≤ T.size)
    {r : HashTable × Nat} (h : insertString junk ht T m p = .ok r) :
    ∀ k, k ≠ hashL ht.htsize (substr T p m) → r.1.head.data k = ht.head.data k := by
  intro k hk
  unfold insertString at h
  rw [hashFunction_eq _ _ _ _ h0 hT, ok_bind] at h
  generalize hashL ht.htsize (substr T p m) = hs at *
  obtain ⟨q, _, h⟩ := bind_ok_inv h
  obtain ⟨e, _, h⟩ := bind_ok_inv h
  cases e with
  | dup c => simp only at h; injection h with h; rw [← h]
  | free q' r' c =>
    dsimp only at h
    obtain ⟨ll, _, h⟩ := bind_ok_inv h
    obtain ⟨x, hx, h⟩ := bind_ok_inv h
    obtain ⟨b, _, h⟩ := bind_ok_inv h
    obtain ⟨rs, _, h⟩ := bind_ok_inv h
    obtain ⟨rs', _, h⟩ := bind_ok_inv h
    injection h with h
    rw [← h]
    show x.1.head.data k = ht.head.data k
    unfold makeRoom at hx
    obtain ⟨r1, _, hx⟩ := bind_ok_inv hx
    obtain ⟨lim, _, hx⟩ := bind_ok_inv hx
    split at hx
    · obtain ⟨b1, _, hx⟩ := bind_ok_inv hx
      obtain ⟨b2, _, hx⟩ := bind_ok_inv hx
      obtain ⟨t, ht1, hx⟩ := bind_ok_inv hx
      injection hx with hx
      rw [← hx]
      unfold linkBlock at ht1
      split at ht1
      · obtain ⟨hd, hd1, ht1⟩ := bind_ok_inv ht1
        injection ht1 with ht1
        rw [← ht1]
        unfold Mem.wr at hd1
        split at hd1
        · injection hd1 with hd1
          rw [← hd1]
          exact Mem.upd_data_ne _ _ hk
        · cases hd1
      · split at ht1
        · cases ht1
        · obtain ⟨hd, hd1, ht1⟩ := bind_ok_inv ht1
          injection ht1 with ht1
          rw [← ht1]
    · split at hx
      · cases hx
      · injection hx with hx
        rw [← hx]

/-- When the record fits into the last block of its bucket, nothing is allocated. -/
theorem insert_fits {ht : HashTable} {junk junk' : Fresh} {T : Mem Nat} {m p : Nat} (h0 : 0 < ht.htsize) (hT : p + m ≤ T.size)
    (hm1 : 1 ≤ m) (hm : m < 2 ^ 62)
    (hs : hashL ht.htsize (substr T p m) < ht.rest.size)
    (hr : ht.rest.data (hashL ht.htsize (substr T p m)) < 2 ^ 63)
    (hf : 2 + nb m + m + ht.nameBytes + 12 < ht.rest.data (hashL ht.htsize (substr T p m))) :
    insertString junk ht T m p = insertString junk' ht T m p := by
  unfold insertString
  rw [hashFunction_eq _ _ _ _ h0 hT, ok_bind, ok_bind]
  generalize hashL ht.htsize (substr T p m) = h at *
  congr 1
  funext q
  congr 1
  funext e
  cases e with
  | dup c => rfl
  | free q r c =>
    dsimp only
    rw [calculateLenlen_eq hm1 (by omega), ok_bind, ok_bind]
    congr 1
    unfold makeRoom spaceRequired
    rw [Mem.rd_ok _ (by exact hs), ok_bind, ok_bind]
    have hlim : spaceLimit (ht.rest.data h) = .ok ((ht.rest.data h : Int) - 12) := by
      unfold spaceLimit
      rw [toI64_eq (by omega), addI64_ok (by omega) (by omega)]; rfl
    dsimp only
    rw [hlim, ok_bind, ok_bind]
    have h8 := nb_le8 hm1 (show m < 2 ^ 64 by omega)
    rw [toI64_eq (by omega), if_neg (by omega), if_neg (by omega)]

/-- The buffer stays, or it is not larger than what can be had. -/
theorem insert_bufsize {ht : HashTable} {junk : Fresh} {T : Mem Nat} {m p : Nat} (hb : ht.hbsize = 512)
    {r : HashTable × Nat} (h : insertString junk ht T m p = .ok r) : r.1.bufsize = ht.bufsize ∨ r.1.bufsize ≤ junk.lim := by
  unfold insertString at h
  obtain ⟨hs, _, h⟩ := bind_ok_inv h
  obtain ⟨q, _, h⟩ := bind_ok_inv h
  obtain ⟨e, _, h⟩ := bind_ok_inv h
  cases e with
  | dup c => simp only at h; injection h with h; rw [← h]; exact Or.inl rfl
  | free q' r' c =>
    dsimp only at h
    obtain ⟨ll, _, h⟩ := bind_ok_inv h
    obtain ⟨x, hx, h⟩ := bind_ok_inv h
    obtain ⟨b, _, h⟩ := bind_ok_inv h
    obtain ⟨rs, _, h⟩ := bind_ok_inv h
    obtain ⟨rs', _, h⟩ := bind_ok_inv h
    injection h with h
    rw [← h]
    show x.1.bufsize = _ ∨ x.1.bufsize ≤ _
    unfold makeRoom at hx
    obtain ⟨r1, _, hx⟩ := bind_ok_inv hx
    obtain ⟨lim, _, hx⟩ := bind_ok_inv hx
    split at hx
    · obtain ⟨b1, hb1, hx⟩ := bind_ok_inv hx
      obtain ⟨b2, _, hx⟩ := bind_ok_inv hx
      obtain ⟨t, ht1, hx⟩ := bind_ok_inv hx
      injection hx with hx
      rw [← hx]
      unfold reallocBytes at hb1
      split at hb1
      · rename_i hroom
        have hlim := hroom.2
        right
        have : t.bufsize = ht.bufsize + (ht.hbsize + spaceRequired ll m ht.nameBytes) := by
          unfold linkBlock at ht1
          split at ht1
          · obtain ⟨hd, hd1, ht1⟩ := bind_ok_inv ht1
            injection ht1 with ht1
            rw [← ht1]
          · split at ht1
            · cases ht1
            · obtain ⟨hd, hd1, ht1⟩ := bind_ok_inv ht1
              injection ht1 with ht1
              rw [← ht1]
        dsimp only at hlim ⊢
        omega
      · cases hb1
    · split at hx
      · cases hx
      · injection hx with hx
        rw [← hx]
        exact Or.inl rfl

/-- A length that is a multiple of 256: the stored length is the sum of the length and the old last byte of its field, provided
the other bytes that are not written are zero. -/
theorem setLength_any (buf : Mem Nat) (p m x : Nat) (h1 : 1 ≤ m) (h2 : m < 2 ^ 62) (hs : p + 1 + nb m ≤ buf.size)
    (hm : m % 256 = 0) (hm2 : m / 256 % 256 ≠ 0 ∨ ∀ i, p < i → i < p + nb m → buf.data i = 0) (hx : x < 256)
    (hj : buf.data (p + nb m) = x) :
    nb (m + x) = nb m ∧ Tot (setLength buf p m) (fun buf' => buf'.size = buf.size ∧ LenAt buf' p (m + x) ∧
      ∀ i, (i < p ∨ p + 1 + nb m ≤ i) → buf'.data i = buf.data i) := by
  rcases hm2 with hm2 | hz
  · exact setLength_last buf p m x h1 h2 hs hm hm2 hx hj
  have hb1 := nb_pos m
  have hlt := nb_lt m
  have hle := nb_le h1
  have hnb : nb (m + x) = nb m := by
    refine nb_unique hb1 (by omega) ?_
    obtain ⟨k, hk⟩ : ∃ k, nb m = k + 1 := ⟨nb m - 1, by omega⟩
    rw [hk, Nat.pow_succ] at hlt ⊢
    omega
  refine ⟨hnb, ?_⟩
  refine (setLength_raw buf p m h1 (by omega) hs).mono ?_
  rintro buf' ⟨e1, e2, t, e3, e4, e5, e6, e7⟩
  have ht : t < nb m := by
    by_contra hc
    have : nb m - t = 0 := by omega
    rw [this] at e5
    exact e5 (by simpa using Nat.dvd_of_mod_eq_zero hm)
  have hsum : ∀ k, (m + x) / 256 ^ (k + 1) % 256 = m / 256 ^ (k + 1) % 256 := by
    intro k
    rw [Nat.pow_succ, Nat.mul_comm, ← Nat.div_div_eq_div_mul, ← Nat.div_div_eq_div_mul]
    congr 2
    omega
  refine ⟨e1, ⟨by rw [hnb]; exact e2, ?_⟩, fun i hi => e7 i (by omega)⟩
  rw [hnb]
  intro j hj'
  by_cases hj2 : j = nb m - 1
  · rw [e7 _ (by omega), show p + 1 + j = p + nb m by omega, hj, show nb m - 1 - j = 0 by omega, Nat.pow_zero, Nat.div_one]
    omega
  · obtain ⟨k, hk⟩ : ∃ k, nb m - 1 - j = k + 1 := ⟨nb m - 1 - j - 1, by omega⟩
    rw [hk, hsum]
    by_cases hjt : j < t
    · rw [e6 j hjt, hk]
    · rw [e7 _ (by omega), hz _ (by omega) (by omega)]
      obtain ⟨c, hc⟩ := e4
      obtain ⟨d, hd⟩ : ∃ d, nb m - t = k + 1 + 1 + d := ⟨nb m - t - (k + 1 + 1), by omega⟩
      rw [hd, Nat.pow_add, Nat.pow_succ 256 (k + 1), Nat.mul_assoc, Nat.mul_assoc] at hc
      have : m / 256 ^ (k + 1) = 256 * (256 ^ d * c) := by
        rw [hc]; exact Nat.mul_div_cancel_left _ (Nat.pow_pos (by omega))
      rw [this]; omega

/-- Writing a record with a length that is a multiple of 256 into bytes `x`. -/
theorem writeRecord_dirty {buf T : Mem Nat} {p m x : Nat} (NB r : Nat) (hT : p + m ≤ T.size) (h1 : 1 ≤ m) (h2 : m < 2 ^ 62)
    (hs : r + 2 + nb m + m + NB + 12 ≤ buf.size) (hm : m % 256 = 0)
    (hm2 : m / 256 % 256 ≠ 0 ∨ ∀ i, r < i → i < r + nb m → buf.data i = 0) (hx : x < 256) (hj : buf.data (r + nb m) = x) :
    Tot (writeRecord NB buf T m p (nb m) r) (fun b => b.size = buf.size ∧ LenAt b r (m + x) ∧ nb (m + x) = nb m ∧
      ∀ i, (i < r ∨ r + 2 + nb m + m + NB + 12 ≤ i) → b.data i = buf.data i) := by
  obtain ⟨hnb, hset⟩ := setLength_any buf r m x h1 h2 (by omega) hm hm2 hx hj
  unfold writeRecord
  rw [Tot_bind]
  refine hset.mono ?_
  rintro b1 ⟨a1, a2, a3⟩
  simp only [Tot_bind, Mem.Tot_rd, Mem.Tot_wr]
  refine ⟨by omega, by omega, ?_⟩
  refine (loopUp_spec (fun i (b : Mem Nat) => b.size = buf.size ∧
    ∀ j, (j < r + 1 + nb m ∨ r + 2 + nb m + m ≤ j) → b.data j = b1.data j) 0 m _ _
    ⟨by simpa using a1, fun j hj => Mem.upd_data_ne _ _ (by omega)⟩ ?_).mono ?_
  · rintro i b _ i2 ⟨c1, c3⟩
    simp only [Tot_bind, Mem.Tot_rd, Mem.Tot_wr]
    refine ⟨by omega, by omega, by simpa using c1, ?_⟩
    intro j hj
    rw [Mem.upd_data_ne _ _ (by omega)]; exact c3 j hj
  · rintro b2 ⟨c1, c3⟩
    refine (loopUp_spec (fun i (b : Mem Nat) => b.size = buf.size ∧
      ∀ j, (j < r + 2 + nb m + m + NB ∨ r + 2 + nb m + m + NB + 12 ≤ j) → b.data j = b2.data j) 0 12 _ _
      ⟨by simpa using c1, fun _ _ => rfl⟩ ?_).mono ?_
    · rintro i b _ i2 ⟨d1, d3⟩
      simp only [Mem.Tot_wr]
      refine ⟨by omega, by simpa using d1, ?_⟩
      intro j hj
      rw [Mem.upd_data_ne _ _ (by omega)]; exact d3 j hj
    · rintro b3 ⟨d1, d3⟩
      refine ⟨d1, ?_, hnb, ?_⟩
      · refine a2.congr ?_
        intro i i1 i2
        rw [hnb] at i2
        rw [d3 _ (by omega), c3 _ (by omega)]
      · intro i hi
        rw [d3 _ (by omega), c3 _ (by omega), a3 _ (by omega)]

/-! ## The invariant -/

/-- A table some of whose buckets (`bad`) are poisoned; without them it satisfies the invariant of a table, and (if `K`) it has no
string of a length that is a multiple of 256, 512 or more. Used in proofs only. -/
structure PTab (lo hi L : Nat) (K : Prop) (ht : HashTable) (bad : Nat → Bool) (own : Nat → Tag) (ents : Nat → List (Nat × List Nat)) (E : Nat → Nat) :
    Prop where
  tab : Tab (ht.clean bad) own ents E
  nb8 : ht.nameBytes ≤ 8
  doom : ∀ h, h < ht.htsize → bad h = true → Doom ht.nameBytes lo hi ht.buf (fun i => own i = .name 0) (ht.head.data h)
  rest : ∀ h, h < ht.htsize → (ht.clean bad).rest.data h ≤ 512
  cl : K → ∀ h, h < ht.htsize → ∀ y ∈ ents h, ¬ (y.2.length % 256 = 0 ∧ 512 ≤ y.2.length)
  lim : ht.bufsize ≤ L

theorem Tab.coll {ht : HashTable} {own : Nat → Tag} {ents : Nat → List (Nat × List Nat)} {E : Nat → Nat} (t : Tab ht own ents E) (c : Nat) :
    Tab { ht with collisions := c } own ents E :=
  ⟨t.hts, t.hb, t.restsz, t.headsz, t.bufsz, t.small, t.ownlt, t.empty, t.chain, t.room, t.hash, t.nodup⟩

/-- What an insertion leaves. Used in proofs only. -/
def InsPost (lo hi L : Nat) (K N : Prop) (ht : HashTable) (bad : Nat → Bool) (m H : Nat) (r : HashTable × Nat) : Prop :=
  ∃ bad' own' ents' E', PTab lo hi L K r.1 bad' own' ents' E' ∧ r.1.htsize = ht.htsize ∧ r.1.nameBytes = ht.nameBytes ∧
    (∀ h, bad h = true → bad' h = true) ∧ ht.bufsize ≤ r.1.bufsize ∧
    (N → bad' H = true ∧ (bad H = false → ht.bufsize + 512 + (2 + nb m + m + ht.nameBytes) ≤ r.1.bufsize))

section
variable {lo hi L : Nat} {K N : Prop} {ht : HashTable} {bad : Nat → Bool} {own : Nat → Tag} {ents : Nat → List (Nat × List Nat)} {E : Nat → Nat}
  {junk : Fresh} {T : Mem Nat} {m p : Nat}

theorem PTab.coll (t : PTab lo hi L K ht bad own ents E) (c : Nat) : PTab lo hi L K { ht with collisions := c } bad own ents E :=
  ⟨t.tab.coll c, t.nb8, t.doom, t.rest, t.cl, t.lim⟩

/-- A poisoned bucket: the string is found, or the buffer is left. -/
theorem insert_bad (t : PTab lo hi L K ht bad own ents E) (hT : p + m ≤ T.size) (hm58 : m < 2 ^ 58) (R : Range lo hi L)
    (hb : bad (hashL ht.htsize (substr T p m)) = true) :
    ErrIn MemFault (insertString junk ht T m p) (InsPost lo hi L K N ht bad m (hashL ht.htsize (substr T p m))) := by
  have h0 : 0 < ht.htsize := t.tab.hts
  have hlt := hashL_lt h0 (substr T p m)
  have hhs : ht.head.size = ht.htsize := t.tab.headsz
  have hbs : ht.buf.size = ht.bufsize := t.tab.bufsz
  have hl := t.lim
  unfold insertString
  rw [hashFunction_eq _ _ _ _ h0 hT, ok_bind]
  generalize hashL ht.htsize (substr T p m) = h at *
  rw [Mem.rd_ok _ (by omega), ok_bind]
  have hd := t.doom h hlt hb
  have hPs : ∀ i, own i = Tag.name 0 → i < ht.buf.size := fun i hi => by
    rw [hbs]; exact t.tab.ownlt i (by rw [hi]; simp)
  refine (scan_doom hm58 R t.nb8 hPs (by omega) hd (ht.bufsize + 2) none ht.collisions (by omega) (by omega)).bind ?_
  rintro _ ⟨c, rfl⟩
  exact ⟨bad, own, ents, E, t.coll c, rfl, rfl, fun _ h => h, Nat.le_refl _, fun _ => ⟨hb, fun h => by rw [hb] at h; cases h⟩⟩

/-- From the table without the poisoned buckets to the table. -/
theorem insert_goodP (t : PTab lo hi L K ht bad own ents E) (hT : p + m ≤ T.size) (hm3 : 3 ≤ m) 
    (hlim : junk.lim ≤ L) (hb : bad (hashL ht.htsize (substr T p m)) = false) (junk' : Fresh)
    (heq : insertString junk ht T m p = insertString junk' ht T m p)
    (hroom : junk'.Room (ht.bufsize + 512 + (bodyLen (substr T p m) + ht.nameBytes)))
    (hj : m % 256 ≠ 0 ∨ ∀ i, ht.bufsize ≤ i → junk' i % 256 = 0)
    (hcl : K → ¬ (m % 256 = 0 ∧ 512 ≤ m)) (hN : ¬ N) :
    ErrIn MemFault (insertString junk ht T m p) (InsPost lo hi L K N ht bad m (hashL ht.htsize (substr T p m))) := by
  have h0 : 0 < ht.htsize := t.tab.hts
  have key := insertString_tot t.tab junk' T m p hT hm3 hroom hj
  rw [insert_clean h0 hT hb, ← heq] at key
  cases hr : insertString junk ht T m p with
  | error e => rw [hr] at key; exact key.elim
  | ok r =>
    rw [hr, ok_bind, Tot_ok] at key
    have hhead := insert_head h0 hT hr
    have hbz := insert_bufsize (show ht.hbsize = 512 from t.tab.hb) hr
    have hlt := t.lim
    have hne : ∀ k, bad k = true → k ≠ hashL ht.htsize (substr T p m) := by
      intro k hk he; rw [he, hb] at hk; cases hk
    rcases key with ⟨_, _, c, _, k1⟩ | ⟨_, _, own', ents', E', r1, k1, k2⟩
    · have k3 : r.1.clean bad = { ht.clean bad with collisions := c } := k1
      have kb : r.1.buf = ht.buf := by have := congrArg HashTable.buf k3; exact this
      have ks : r.1.htsize = ht.htsize := by have := congrArg HashTable.htsize k3; exact this
      have kn : r.1.nameBytes = ht.nameBytes := by have := congrArg HashTable.nameBytes k3; exact this
      have kz : r.1.bufsize = ht.bufsize := by have := congrArg HashTable.bufsize k3; exact this
      refine ⟨bad, own, ents, E, ⟨by rw [k3]; exact t.tab.coll c, by rw [kn]; exact t.nb8, ?_, ?_, by rw [ks]; exact t.cl, by rw [kz]; exact t.lim⟩,
        ks, kn, fun _ h => h, by omega, fun h => absurd h hN⟩
      · intro h hh hbad
        rw [kn, kb, hhead h (hne h hbad)]
        exact t.doom h (by omega) hbad
      · intro h hh
        rw [k3]; exact t.rest h (by omega)
    · have ks : r.1.htsize = ht.htsize := k2.htsize
      have kn : r.1.nameBytes = ht.nameBytes := k2.nameBytes
      refine ⟨bad, own', ents', E', ⟨k1, by rw [kn]; exact t.nb8, ?_, ?_, ?_, by omega⟩, ks, kn, fun _ h => h, k2.bufsize.1, fun h => absurd h hN⟩
      · intro h hh hbad
        rw [kn, hhead h (hne h hbad)]
        exact (t.doom h (by omega) hbad).frame (fun i hi => k2.names 0 i hi)
      · intro h hh
        exact k2.rest t.rest h hh
      · intro hK h hh y hy
        rw [k2.ents] at hy
        dsimp only at hy
        split at hy
        · rcases List.mem_append.1 hy with hy | hy
          · exact t.cl hK h (by omega) y hy
          · rw [List.mem_singleton] at hy
            subst hy
            rw [substr_length]; exact hcl hK
        · exact t.cl hK h (by omega) y hy

theorem PTab.head0 (t : PTab lo hi L K ht bad own ents E) {h : Nat} (hlt : h < ht.htsize) (hb : bad h = false) (h0 : ht.head.data h = 0) :
    ents h = [] ∧ ht.rest.data h = 0 := by
  have e1 : (ht.clean bad).head.data h = ht.head.data h := by unfold clean; simp [hb]
  have e2 : (ht.clean bad).rest.data h = ht.rest.data h := by unfold clean; simp [hb]
  have := t.tab.empty h hlt (by rw [e1]; exact h0)
  rw [e2] at this
  exact this

/-- The walk of `insert_string` over a bucket that is not poisoned. -/
theorem PTab.scan (t : PTab lo hi L K ht bad own ents E) (hT : p + m ≤ T.size) {h : Nat} (hlt : h < ht.htsize) (hb : bad h = false) :
    Tot (whileM (ht.bufsize + 2) (ht.head.data h, none, ht.collisions) (insertStep ht.nameBytes ht.buf T m p))
      (fun res => (substr T p m ∈ (ents h).map Prod.snd ∧ ∃ c, res = .dup c) ∨ (∃ q r0 c, res = .free q r0 c ∧
        ((ht.head.data h = 0 ∧ q = 0 ∧ r0 = none) ∨ (ht.head.data h ≠ 0 ∧ q = E h ∧ r0 = some (E h))))) := by
  by_cases h0 : ht.head.data h = 0
  · rw [h0]
    simp only [whileM, insertStep, if_neg (show ¬ (0 : Nat) ≠ 0 by omega), ok_bind, Tot_ok]
    exact Or.inr ⟨_, _, _, rfl, Or.inl ⟨trivial, rfl, rfl⟩⟩
  · have e1 : (ht.clean bad).head.data h = ht.head.data h := by unfold clean; simp [hb]
    have ch := t.tab.chain h hlt (by rw [e1]; exact h0)
    rw [e1] at ch
    have hbs : ht.buf.size = ht.bufsize := t.tab.bufsz
    have hPs : ∀ i, own i = Tag.str h → i < ht.buf.size := fun i hi => by
      rw [hbs]; exact t.tab.ownlt i (by rw [hi]; simp)
    have hsm : ht.bufsize < 2 ^ 63 := t.tab.small
    refine (scan_spec hT hPs (by omega) ch (ht.bufsize + 2) none ht.collisions (Or.inl (by omega))).mono ?_
    rintro res (⟨a, c, _, b⟩ | ⟨a, c, _, b⟩)
    · exact Or.inl ⟨a, c, b⟩
    · exact Or.inr ⟨_, _, c, b, Or.inr ⟨h0, rfl, rfl⟩⟩

/-- A new block: the record of a length that is a multiple of 256 poisons its bucket. -/
theorem insert_full (t : PTab lo hi L K ht bad own ents E) (hT : p + m ≤ T.size) (hm3 : 3 ≤ m) (hm58 : m < 2 ^ 58) (R : Range lo hi L)
    (hlim : junk.lim ≤ L) (hb : bad (hashL ht.htsize (substr T p m)) = false)
    (hf : ht.rest.data (hashL ht.htsize (substr T p m)) ≤ 2 + nb m + m + ht.nameBytes + 12)
    (hm : junk.Room (ht.bufsize + 512 + (2 + nb m + m + ht.nameBytes)) → m % 256 = 0 ∧
      (m / 256 % 256 ≠ 0 ∨ ∀ i, ht.bufsize + 1 < i → i < ht.bufsize + 1 + nb m → junk i % 256 = 0) ∧
      ∀ i, ht.bufsize + 1 + nb m ≤ i → i < ht.bufsize + 512 + (2 + nb m + m + ht.nameBytes) → lo ≤ junk i % 256 ∧ junk i % 256 ≤ hi)
    (hN : N → substr T p m ∉ (ents (hashL ht.htsize (substr T p m))).map Prod.snd) :
    ErrIn MemFault (insertString junk ht T m p) (InsPost lo hi L K N ht bad m (hashL ht.htsize (substr T p m))) := by
  have h0 : 0 < ht.htsize := t.tab.hts
  have hlt := hashL_lt h0 (substr T p m)
  have hhs : ht.head.size = ht.htsize := t.tab.headsz
  have hrs : ht.rest.size = ht.htsize := t.tab.restsz
  have hbs : ht.buf.size = ht.bufsize := t.tab.bufsz
  have hhb : ht.hbsize = 512 := t.tab.hb
  have hsm : ht.bufsize < 2 ^ 63 := t.tab.small
  have hNB := t.nb8
  have hl := t.lim
  have r1 := R.lo13
  have r2 := R.le
  have r3 := R.low
  have r4 := R.high
  have hnb8 := nb_le8 (show 1 ≤ m by omega) (show m < 2 ^ 64 by omega)
  unfold insertString
  rw [hashFunction_eq _ _ _ _ h0 hT, ok_bind]
  generalize hs : substr T p m = s at *
  generalize hashL ht.htsize s = h at *
  rw [Mem.rd_ok _ (by omega), ok_bind]
  have hscan := t.scan hT hlt hb
  obtain ⟨res, hres, hcase⟩ := Tot_iff.1 hscan
  rw [hres, ok_bind]
  clear hscan hres
  rcases hcase with ⟨hin, c, rfl⟩ | ⟨q, r0, c, rfl, hcase⟩
  · refine ⟨bad, own, ents, E, t.coll c, rfl, rfl, fun _ h => h, Nat.le_refl _, ?_⟩
    intro a
    rw [hs] at hin
    exact absurd hin (hN a)
  dsimp only
  rw [calculateLenlen_eq (show 1 ≤ m by omega) (by omega), ok_bind]
  unfold spaceRequired
  generalize hsp : 1 + 1 + nb m + m + ht.nameBytes = space
  rw [show 2 + nb m + m + ht.nameBytes = space by omega] at hm
  unfold InsPost
  rw [show 2 + nb m + m + ht.nameBytes = space by omega]
  have hspb : space < 2 ^ 59 := by omega
  -- the block
  have e1 : (ht.clean bad).head.data h = ht.head.data h := by unfold clean; simp [hb]
  have e2 : (ht.clean bad).rest.data h = ht.rest.data h := by unfold clean; simp [hb]
  have hrest : ht.rest.data h < 2 ^ 63 := by have := t.rest h hlt; omega
  have hmk : makeRoom junk { ht with collisions := c } h q r0 space = (do
      let buf ← reallocBytes junk ht.buf (ht.bufsize + 512 + space)
      let rest ← ht.rest.wr h (512 + space)
      let t ← linkBlock { ht with collisions := c, buf := buf, bufsize := ht.bufsize + (512 + space), rest := rest } h q r0 (ht.bufsize + 1)
      .ok (t, ht.bufsize + 1)) := by
    unfold makeRoom
    dsimp only
    have hlimt : spaceLimit (ht.rest.data h) = .ok ((ht.rest.data h : Int) - 12) := by
      unfold spaceLimit
      rw [toI64_eq (by omega), addI64_ok (by omega) (by omega)]; rfl
    rw [Mem.rd_ok _ (by omega), ok_bind, hlimt, ok_bind, toI64_eq (by omega), if_pos (by omega), hhb]
  rw [hmk]
  by_cases hroom : junk.Room (ht.bufsize + 512 + space)
  swap
  · unfold reallocBytes
    rw [if_neg hroom]
    exact Or.inr rfl
  obtain ⟨hm0, hm2', hjunk⟩ := hm hroom
  have hroom1 := hroom.1
  have hroom2 := hroom.2
  have hre : reallocBytes junk ht.buf (ht.bufsize + 512 + space) = .ok ⟨ht.bufsize + 512 + space,
      fun i => if i < ht.buf.size then ht.buf.data i else junk i % 256⟩ := by
    unfold reallocBytes; rw [if_pos hroom]
  have hrw : ht.rest.wr h (512 + space) = .ok (ht.rest.upd h (512 + space)) := by
    unfold Mem.wr; rw [if_pos (by omega)]
  rw [hre, ok_bind, hrw, ok_bind]
  -- the link
  have hlink : Tot (linkBlock { ht with collisions := c, buf := ⟨ht.bufsize + 512 + space, fun i => if i < ht.buf.size then ht.buf.data i else junk i % 256⟩, bufsize := ht.bufsize + (512 + space), rest := ht.rest.upd h (512 + space) } h q r0 (ht.bufsize + 1))
      (fun u => u.htsize = ht.htsize ∧ u.hbsize = 512 ∧ u.nameBytes = ht.nameBytes ∧ u.bufsize = ht.bufsize + 512 + space ∧
        u.rest = ht.rest.upd h (512 + space) ∧ u.head.size = ht.htsize ∧ u.buf.size = ht.bufsize + 512 + space ∧
        (∀ k, k ≠ h → u.head.data k = ht.head.data k) ∧ (∀ i, ht.bufsize ≤ i → u.buf.data i = junk i % 256) ∧
        (∀ i, own i ≠ .none → own i ≠ .str h → u.buf.data i = ht.buf.data i) ∧
        (∀ (buf' : Mem Nat) (P' : Nat → Prop), (∀ i, i < ht.bufsize → own i = .str h → P' i ∧ buf'.data i = u.buf.data i) →
          Doom ht.nameBytes lo hi buf' P' (ht.bufsize + 1) → Doom ht.nameBytes lo hi buf' P' (u.head.data h))) := by
    unfold linkBlock
    rcases hcase with ⟨c0, rfl, rfl⟩ | ⟨c0, rfl, rfl⟩
    · rw [if_pos (by rfl)]
      simp only [Tot_bind, Mem.Tot_wr, Tot_ok]
      refine ⟨by omega, trivial, hhb, trivial, by omega, trivial, by simpa using hhs, trivial,
        fun k hk => Mem.upd_data_ne _ _ hk, ?_, ?_, ?_⟩
      · intro i hi; rw [if_neg (by omega)]
      · intro i a _; rw [if_pos (by rw [hbs]; exact t.tab.ownlt i a)]
      · intro buf' P' _ hd
        rw [Mem.upd_data_self]; exact hd
    · obtain ⟨B, b1, b2, b3, b4⟩ := t.tab.room h hlt (by rw [e1]; exact c0)
      have b1' : B ≤ ht.bufsize := b1
      have ch := t.tab.chain h hlt (by rw [e1]; exact c0)
      rw [e1] at ch
      have hE0 := ch.tail.le.2
      rw [if_neg hE0]
      dsimp only
      rw [Tot_bind]
      refine (setPointer_tot _ (E h) (ht.bufsize + 1) (by simp only; omega)).mono ?_
      rintro nb' ⟨f1, f2, f3⟩
      simp only [Tot_ok] at f1 f2 f3 ⊢
      refine ⟨trivial, hhb, trivial, by omega, trivial, hhs, by omega, fun _ _ => trivial, ?_, ?_, ?_⟩
      · intro i hi; rw [f3 i (by omega), if_neg (by omega)]
      · intro i a hne
        rw [f3 i, if_pos (by rw [hbs]; exact t.tab.ownlt i a)]
        by_contra hc
        exact hne (b4 i (by omega) (by omega))
      · intro buf' P' hf hd
        refine ch.doom (by omega) ?_ ?_
        · intro i hi hie
          have hib : i < ht.bufsize := t.tab.ownlt i (by rw [hi]; simp)
          refine ⟨(hf i hib hi).1, ?_⟩
          rw [(hf i hib hi).2, f3 i (by omega), if_pos (by omega)]; rfl
        · refine .jump (E h) (ht.bufsize + 1) hE0 (by omega) (by omega) ?_ ?_ hd
          · intro i i1 i2; exact (hf i (by omega) (b4 i i1 (by omega))).1
          · exact f2.congr (fun i i1 i2 => (hf i (by omega) (b4 i i1 (by omega))).2)
  obtain ⟨u, hu, g1, g2, g3, g4, g5, g6, g7, g8, g9, g10, g11⟩ := Tot_iff.1 hlink
  rw [hu]
  clear hu hlink hmk hre hrw
  rw [ok_bind, ok_bind]
  dsimp only
  obtain ⟨x, hxe⟩ : ∃ x, u.buf.data (ht.bufsize + 1 + nb m) = x := ⟨_, rfl⟩
  have hx := hjunk (ht.bufsize + 1 + nb m) (by omega) (by omega)
  rw [← g9 _ (by omega), hxe] at hx
  have hwr := writeRecord_dirty (buf := u.buf) (T := T) (p := p) (m := m) (x := x) ht.nameBytes (ht.bufsize + 1) hT (by omega) (by omega)
    (by omega) hm0 (hm2'.imp id (fun hz i i1 i2 => by rw [g9 i (by omega)]; exact hz i i1 i2)) (by omega) hxe
  obtain ⟨b, hb', w1, w2, w3, w4⟩ := Tot_iff.1 hwr
  rw [← g3] at hb'
  rw [hb', ok_bind, Mem.rd_ok _ (by rw [g5, Mem.upd_size]; omega), ok_bind]
  clear hwr hb'
  rw [g5, Mem.upd_data_self, subU64_eq (show space ≤ 512 + space by omega)]
  have hrw : (ht.rest.upd h (512 + space)).wr h (512 + space - space) = .ok ((ht.rest.upd h (512 + space)).upd h (512 + space - space)) := by
    unfold Mem.wr; rw [if_pos (by rw [Mem.upd_size]; omega)]
  rw [hrw, ok_bind]
  have hown : ∀ i, own i ≠ .none → i < ht.bufsize := t.tab.ownlt
  -- the new invariant
  let own' : Nat → Tag := fun i => if own i = .str h then .name 0 else if ht.bufsize ≤ i ∧ i < ht.bufsize + 512 + space then .name 0 else own i
  let bad' : Nat → Bool := fun k => bad k || decide (k = h)
  have hbad : ∀ k, k ≠ h → bad' k = bad k := by intro k hk; simp only [bad']; simp [hk]
  have hbadh : bad' h = true := by simp only [bad']; simp
  have hnew : ∀ i, ht.bufsize ≤ i → i < ht.bufsize + 512 + space → own' i = .name 0 := by
    intro i i1 i2
    simp only [own']
    split
    · rfl
    · rw [if_pos ⟨i1, i2⟩]
  have hold : ∀ i, own i = .str h → own' i = .name 0 := by
    intro i hi; simp only [own']; rw [if_pos hi]
  have hkeep : ∀ i, own i ≠ .none → own i ≠ .str h → own' i = own i ∧ b.data i = ht.buf.data i := by
    intro i a hne
    have := hown i a
    refine ⟨?_, ?_⟩
    · simp only [own']; rw [if_neg hne, if_neg (by omega)]
    · rw [w4 i (by omega)]; exact g10 i a hne
  have hch : ∀ k, k ≠ h → ((⟨u.head.size, fun k => if bad' k then 0 else u.head.data k⟩ : Mem Nat).data k) = (ht.clean bad).head.data k := by
    intro k hk
    unfold clean
    dsimp only
    rw [hbad k hk, g8 k hk]
  have hcr : ∀ k, k ≠ h → (if bad' k then 0 else ((ht.rest.upd h (512 + space)).upd h (512 + space - space)).data k) = (ht.clean bad).rest.data k := by
    intro k hk
    unfold clean
    dsimp only
    rw [hbad k hk, Mem.upd_data_ne _ _ hk, Mem.upd_data_ne _ _ hk]
  refine ⟨bad', own', fun k => if k = h then [] else ents k, E, ⟨⟨?_, ?_, ?_, ?_, ?_, ?_, ?_, ?_, ?_, ?_, ?_, ?_⟩, ?_, ?_, ?_, ?_, ?_⟩, g1, g3, ?_, ?_, ?_⟩
  · show 0 < u.htsize; omega
  · exact g2
  · show ((ht.rest.upd h (512 + space)).upd h (512 + space - space)).size = u.htsize
    rw [Mem.upd_size, Mem.upd_size]; omega
  · show u.head.size = u.htsize; omega
  · show b.size = u.bufsize; omega
  · show u.bufsize < 2 ^ 63; omega
  · intro i hi
    show i < u.bufsize
    rw [g4]
    simp only [own'] at hi
    split at hi
    · rename_i ho
      have := hown i (by rw [ho]; simp)
      omega
    · split at hi
      · omega
      · have := hown i hi; omega
  · intro k hk hk0
    have hk1 : k < u.htsize := hk
    by_cases hkh : k = h
    · subst hkh
      refine ⟨if_pos rfl, ?_⟩
      show (if bad' k then 0 else _) = 0
      rw [hbadh]; rfl
    · have := t.tab.empty k (by show k < ht.htsize; omega) (by rw [← hch k hkh]; exact hk0)
      refine ⟨by try dsimp only
                 rw [if_neg hkh]; exact this.1, ?_⟩
      show (if bad' k then 0 else _) = 0
      exact (hcr k hkh).trans this.2
  · intro k hk hk0
    have hk1 : k < u.htsize := hk
    by_cases hkh : k = h
    · exfalso
      apply hk0
      subst hkh
      show (if bad' k then 0 else _) = 0
      rw [hbadh]; rfl
    · have hd0 : (ht.clean bad).head.data k ≠ 0 := by rw [← hch k hkh]; exact hk0
      have := t.tab.chain k (by show k < ht.htsize; omega) hd0
      rw [← hch k hkh] at this
      dsimp only
      rw [if_neg hkh]
      have hst : ∀ i, own i = Tag.str k → own i ≠ .none ∧ own i ≠ .str h := by
        intro i hi; rw [hi]; exact ⟨by simp, fun he => hkh (by injection he)⟩
      have hnm : ∀ q i, own i = Tag.name q → own i ≠ .none ∧ own i ≠ .str h := by
        intro q i hi; rw [hi]; exact ⟨by simp, by simp⟩
      show Chain u.nameBytes b _ _ (if bad' k then 0 else _) _ _
      rw [g3]
      refine this.frame ?_ ?_
      · intro i hi
        have := hkeep i (hst i hi).1 (hst i hi).2
        exact ⟨this.1.trans hi, this.2⟩
      · intro q i hi
        have := hkeep i (hnm q i hi).1 (hnm q i hi).2
        exact this.1.trans hi
  · intro k hk hk0
    have hk1 : k < u.htsize := hk
    by_cases hkh : k = h
    · exfalso
      apply hk0
      subst hkh
      show (if bad' k then 0 else _) = 0
      rw [hbadh]; rfl
    · have hd0 : (ht.clean bad).head.data k ≠ 0 := by rw [← hch k hkh]; exact hk0
      obtain ⟨B, b1, b2, b3, b4⟩ := t.tab.room k (by show k < ht.htsize; omega) hd0
      have b1' : B ≤ ht.bufsize := b1
      refine ⟨B, by show B ≤ u.bufsize; omega, ?_, b3, ?_⟩
      · show E k + (if bad' k then 0 else _) = B + 1
        have e : (if bad' k then 0 else _) = _ := hcr k hkh
        rw [← b2]
        exact congrArg (E k + ·) e
      · intro i i1 i2
        have hi := b4 i i1 i2
        exact (hkeep i (by rw [hi]; simp) (by rw [hi]; intro he; exact hkh (by injection he))).1.trans hi
  · intro k hk y hy
    have hk1 : k < u.htsize := hk
    try dsimp only at hy
    split at hy
    · cases hy
    · show hashL u.htsize y.2 = k
      rw [g1]
      exact t.tab.hash k (by show k < ht.htsize; omega) y hy
  · intro k hk
    have hk1 : k < u.htsize := hk
    try dsimp only
    split
    · simp
    · exact t.tab.nodup k (by show k < ht.htsize; omega)
  · show u.nameBytes ≤ 8; omega
  · intro k hk hbk
    have hk1 : k < u.htsize := hk
    show Doom u.nameBytes lo hi b _ (u.head.data k)
    rw [g3]
    by_cases hkh : k = h
    · subst hkh
      refine g11 b _ ?_ ?_
      · intro i i1 i2
        exact ⟨hold i i2, w4 i (by omega)⟩
      · refine .record _ (m + x) (by omega) (by omega) (by rw [w3]; omega) ?_ w2 ?_
        · intro i i1 i2
          rw [w3] at i2
          exact hnew i (by omega) (by omega)
        · refine .crash _ (by omega) ?_
          intro i i1 i2
          rw [w3] at i1 i2
          exact ⟨hnew i (by omega) (by omega), by rw [w4 i (by omega), g9 i (by omega)]; exact hjunk i (by omega) (by omega)⟩
    · rw [g8 k hkh]
      refine (t.doom k (by omega) (by rw [← hbad k hkh]; exact hbk)).frame ?_
      intro i hi
      have := hkeep i (by rw [hi]; simp) (by rw [hi]; simp)
      exact ⟨this.1.trans hi, this.2⟩
  · intro k hk
    have hk1 : k < u.htsize := hk
    show (if bad' k then 0 else _) ≤ 512
    by_cases hkh : k = h
    · subst hkh; rw [hbadh]; exact Nat.zero_le _
    · have e : (if bad' k then 0 else _) = _ := hcr k hkh
      exact Nat.le_trans (Nat.le_of_eq e) (t.rest k (by omega))
  · intro hK k hk y hy
    have hk1 : k < u.htsize := hk
    try dsimp only at hy
    split at hy
    · cases hy
    · exact t.cl hK k (by omega) y hy
  · show u.bufsize ≤ _; omega
  · intro k hk; simp only [bad']; rw [hk]; rfl
  · show ht.bufsize ≤ u.bufsize; omega
  · intro _; exact ⟨hbadh, fun _ => by show _ ≤ u.bufsize; omega⟩

/-- An insertion into a table with poisoned buckets: an access outside the buffer, or such a table again. -/
theorem insert_any (t : PTab lo hi L True ht bad own ents E) (hT : p + m ≤ T.size) (hm3 : 3 ≤ m) (hm58 : m < 2 ^ 58) (R : Range lo hi L)
    (hlim : junk.lim ≤ L) (hjunk : ∀ i, lo ≤ junk i % 256 ∧ junk i % 256 ≤ hi) (hm2 : m % 256 = 0 → m / 256 % 256 ≠ 0) :
    ErrIn MemFault (insertString junk ht T m p) (InsPost lo hi L True
      (m % 256 = 0 ∧ (512 ≤ m ∨ ht.head.data (hashL ht.htsize (substr T p m)) = 0)) ht bad m (hashL ht.htsize (substr T p m))) := by
  have h0 : 0 < ht.htsize := t.tab.hts
  have hlt := hashL_lt h0 (substr T p m)
  have hrs : ht.rest.size = ht.htsize := t.tab.restsz
  have hl := t.lim
  have r1 := R.lo13
  have r2 := R.le
  have r3 := R.low
  have r4 := R.high
  have hnb8 := nb_le8 (show 1 ≤ m by omega) (show m < 2 ^ 64 by omega)
  have hNB := t.nb8
  have hbl : bodyLen (substr T p m) = 2 + nb m + m := by unfold bodyLen; rw [substr_length]
  by_cases hb : bad (hashL ht.htsize (substr T p m)) = true
  · exact insert_bad t hT hm58 R hb
  have hb : bad (hashL ht.htsize (substr T p m)) = false := by simpa using hb
  have e2 : (ht.clean bad).rest.data (hashL ht.htsize (substr T p m)) = ht.rest.data (hashL ht.htsize (substr T p m)) := by
    unfold clean; simp [hb]
  have hr5 := t.rest _ hlt
  rw [e2] at hr5
  by_cases hf : 2 + nb m + m + ht.nameBytes + 12 < ht.rest.data (hashL ht.htsize (substr T p m))
  · refine insert_goodP t hT hm3 hlim hb ⟨fun _ => 0, 2 ^ 63⟩ ?_ ?_ (Or.inr (fun _ _ => rfl)) (by omega) ?_
    · exact insert_fits h0 hT (by omega) (by omega) (by omega) (by omega) hf
    · rw [hbl]
      refine ⟨by omega, ?_⟩
      show _ ≤ 2 ^ 63
      omega
    · rintro ⟨_, hz | hz⟩
      · omega
      · have := (t.head0 hlt hb hz).2
        omega
  · by_cases hg : junk.Room (ht.bufsize + 512 + (2 + nb m + m + ht.nameBytes)) ∧ m % 256 ≠ 0
    · refine insert_goodP t hT hm3 hlim hb junk rfl ?_ (Or.inl hg.2) (by omega) (by omega)
      rw [hbl]; exact hg.1
    · refine insert_full t hT hm3 hm58 R hlim hb (by omega) (fun hr => ?_) ?_
      · have hc : m % 256 = 0 := by
          by_contra hc; exact hg ⟨hr, hc⟩
        exact ⟨hc, Or.inl (hm2 hc), fun i _ _ => hjunk i⟩
      · rintro ⟨a, b⟩ hin
        rcases b with b | b
        · obtain ⟨y, hy, hy2⟩ := List.mem_map.1 hin
          refine t.cl trivial _ hlt y hy ?_
          rw [hy2, substr_length]; exact ⟨a, b⟩
        · rw [(t.head0 hlt hb b).1] at hin; cases hin

/-- The same when the bytes behind the buffer are zero. -/
theorem insert_zero (t : PTab lo hi L False ht bad own ents E) (hT : p + m ≤ T.size) (hm3 : 3 ≤ m) (hm58 : m < 2 ^ 58) (R : Range lo hi L)
    (hlim : junk.lim ≤ L) (hjunk : ∀ i, ht.bufsize ≤ i → junk i % 256 = 0) :
    ErrIn MemFault (insertString junk ht T m p) (InsPost lo hi L False False ht bad m (hashL ht.htsize (substr T p m))) := by
  have h0 : 0 < ht.htsize := t.tab.hts
  have hlt := hashL_lt h0 (substr T p m)
  have hrs : ht.rest.size = ht.htsize := t.tab.restsz
  have hl := t.lim
  have r1 := R.lo13
  have r2 := R.le
  have r3 := R.low
  have r4 := R.high
  have hnb8 := nb_le8 (show 1 ≤ m by omega) (show m < 2 ^ 64 by omega)
  have hNB := t.nb8
  have hbl : bodyLen (substr T p m) = 2 + nb m + m := by unfold bodyLen; rw [substr_length]
  by_cases hb : bad (hashL ht.htsize (substr T p m)) = true
  · exact insert_bad t hT hm58 R hb
  have hb : bad (hashL ht.htsize (substr T p m)) = false := by simpa using hb
  have e2 : (ht.clean bad).rest.data (hashL ht.htsize (substr T p m)) = ht.rest.data (hashL ht.htsize (substr T p m)) := by
    unfold clean; simp [hb]
  have hr5 := t.rest _ hlt
  rw [e2] at hr5
  by_cases hf : 2 + nb m + m + ht.nameBytes + 12 < ht.rest.data (hashL ht.htsize (substr T p m))
  · refine insert_goodP t hT hm3 hlim hb ⟨fun _ => 0, 2 ^ 63⟩ ?_ ?_ (Or.inr (fun _ _ => rfl)) (fun h => h.elim) (fun h => h)
    · exact insert_fits h0 hT (by omega) (by omega) (by omega) (by omega) hf
    · rw [hbl]
      refine ⟨by omega, ?_⟩
      show _ ≤ 2 ^ 63
      omega
  · by_cases hg : junk.Room (ht.bufsize + 512 + (2 + nb m + m + ht.nameBytes))
    · refine insert_goodP t hT hm3 hlim hb junk rfl ?_ (Or.inr hjunk) (fun h => h.elim) (fun h => h)
      rw [hbl]; exact hg
    · exact insert_full t hT hm3 hm58 R hlim hb (by omega) (fun hr => absurd hr hg) (fun h => h.elim)

end

end HashTable
end Flbwt
