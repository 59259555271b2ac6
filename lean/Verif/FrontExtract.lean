import Verif.Plan
import Verif.Front
import Verif.FrontTheory
import Verif.HashOps

/-!
# `extract_LMS_strings`
-/

namespace Flbwt

open HashTable (Tab Has allEnts substr bodyLen nb hashL)

theorem cnt_step {n i : Nat} {P : Nat → Prop} [Decidable (P i)] (hi : i < n) :
    cnt n (fun q => i ≤ q ∧ P q) = cnt n (fun q => i + 1 ≤ q ∧ P q) + if P i then 1 else 0 := by
  by_cases h : P i
  · rw [if_pos h]
    refine cnt_insert hi (fun q _ => ?_) (by omega)
    constructor
    · rintro ⟨h1, h2⟩
      rcases Nat.lt_or_ge i q with h3 | h3
      · exact Or.inl ⟨h3, h2⟩
      · exact Or.inr (by omega)
    · rintro (⟨h1, h2⟩ | rfl)
      · exact ⟨by omega, h2⟩
      · exact ⟨Nat.le_refl _, h⟩
  · rw [if_neg h, Nat.add_zero]
    refine cnt_congr (fun q _ => ⟨?_, fun ⟨h1, h2⟩ => ⟨by omega, h2⟩⟩)
    rintro ⟨h1, h2⟩
    refine ⟨?_, h2⟩
    rcases Nat.lt_or_ge i q with h3 | h3
    · exact h3
    · have : q = i := by omega
      subst this; exact absurd h2 h

theorem bump_tot {a : Mem Nat} {i : Nat} (hi : i < a.size) (hx : a.data i < 2 ^ 64 - 1) :
    bump a i = .ok (a.upd i (a.data i + 1)) := by
  unfold bump
  rw [Mem.rd_ok _ hi, HashTable.ok_bind, Mem.wr_ok _ _ hi]
  unfold incU64
  rw [if_neg (by omega)]

/-- a histogram over the bytes in slots `1..257` -/
structure Histo (n : Nat) (a : Mem Nat) (f : Nat → Nat) (P : Nat → Prop) (z : Nat) : Prop where
  sz : a.size = 258
  zero : a.data 0 = z
  val : ∀ c, c < 257 → a.data (c + 1) = cnt n (fun q => P q ∧ f q = c)

theorem Histo.bump {n : Nat} {a : Mem Nat} {f : Nat → Nat} {P P' : Nat → Prop} {z i : Nat} (h : Histo n a f P z)
    (hn : n < 2 ^ 63) (hi : i < n) (hb : f i < 256) (hP : ¬ P i) (hP' : ∀ q, q < n → (P' q ↔ P q ∨ q = i)) :
    Tot (bump a (f i + 1)) (fun a' => Histo n a' f P' z) := by
  have hv := h.val (f i) (by omega)
  have hc := cnt_le n (fun q => P q ∧ f q = f i)
  rw [bump_tot (by rw [h.sz]; omega) (by omega), Tot_ok]
  refine ⟨h.sz, ?_, ?_⟩
  · rw [Mem.upd_data_ne _ _ (by omega)]; exact h.zero
  · intro c hc
    by_cases he : c = f i
    · subst he
      rw [Mem.upd_data_self, hv]
      symm
      refine cnt_insert hi (fun q hq => ?_) (fun hh => hP hh.1)
      rw [hP' q hq]
      constructor
      · rintro ⟨h1 | h1, h2⟩
        · exact Or.inl ⟨h1, h2⟩
        · exact Or.inr h1
      · rintro (⟨h1, h2⟩ | rfl)
        · exact ⟨Or.inl h1, h2⟩
        · exact ⟨Or.inr rfl, rfl⟩
    · rw [Mem.upd_data_ne _ _ (by omega), h.val c hc]
      refine cnt_congr (fun q hq => ?_)
      rw [hP' q hq]
      constructor
      · rintro ⟨h1, h2⟩; exact ⟨Or.inl h1, h2⟩
      · rintro ⟨h1 | h1, h2⟩
        · exact ⟨h1, h2⟩
        · subst h1; exact absurd h2.symm he

theorem Histo.congr {n : Nat} {a : Mem Nat} {f : Nat → Nat} {P P' : Nat → Prop} {z : Nat} (h : Histo n a f P z)
    (hP' : ∀ q, q < n → (P' q ↔ P q)) : Histo n a f P' z :=
  ⟨h.sz, h.zero, fun c hc => by rw [h.val c hc]; exact cnt_congr (fun q hq => by rw [hP' q hq])⟩

/-- The memory that suffices for the buffer of the table for a string of `n` bytes (see C44) -/
abbrev enoughFor (n : Nat) : Nat := 27 * n + 34702400

/-- The string at `p` is not a new string of a length that is a multiple of 256 that opens a block of the table. -/
def NoOpenAt (T : Nat → Nat) (n p : Nat) : Prop :=
  ∀ ps : List Nat, ps.Pairwise (· > ·) → isLMS T n p → (∀ x, x ∈ ps ↔ p < x ∧ isLMS T n x) → (nx T n p - p + 1) % 256 = 0 →
    wstr T n p ∉ ps.map (wstr T n) → ¬ (plan (nb (n / 2 + 1)) (ps.map (wstr T n))).Opens (nb (n / 2 + 1)) (wstr T n p)

/-- No new string of a length that is a multiple of 256 opens a block of the table. -/
def NoOpen (T : Nat → Nat) (n : Nat) : Prop := ∀ p, NoOpenAt T n p

theorem NoOpen.of_lengths {T : Nat → Nat} {n : Nat} (h : ∀ p, isLMS T n p → (nx T n p - p + 1) % 256 ≠ 0) : NoOpen T n :=
  fun p _ _ hp _ h0 => absurd h0 (h p hp)

/-- There is enough memory, and the lengths stored at the beginning of a block of the table are not multiples of 256, or
fresh memory is zero (the length field does not survive otherwise, see C18). -/
structure LmsLenOK (junk : Fresh) (T : Nat → Nat) (n : Nat) : Prop where
  room : enoughFor n ≤ junk.lim
  ok : (∀ i, junk i % 256 = 0) ∨ NoOpen T n

/-- The same for the lengths in the table and in the head record. -/
structure LenOK (junk : Fresh) (T : Nat → Nat) (n : Nat) : Prop where
  room : enoughFor n ≤ junk.lim
  ok : (∀ i, junk i % 256 = 0) ∨ (NoOpen T n ∧ (lpos T n 0 + 1) % 256 ≠ 0)

theorem LenOK.lms {junk : Fresh} {T : Nat → Nat} {n : Nat} (h : LenOK junk T n) : LmsLenOK junk T n :=
  ⟨h.room, h.ok.imp id (fun h => h.1)⟩

/-- Input: a block of at least `n + 1` bytes. -/
structure Input (T : Mem Nat) (n : Nat) : Prop where
  n3 : 3 ≤ n
  nlt : n < 2 ^ 57
  size : n + 1 ≤ T.size
  byte : ∀ i, i ≤ n → T.data i < 256

/-- The hash table holds the strings of the S* positions satisfying `P`; `u` of them are different. -/
structure HtOK (T : Nat → Nat) (n : Nat) (ht : HashTable) (P : Nat → Prop) (u : Nat) : Prop where
  tab : ∃ own ents E, Tab ht own ents E ∧ (∀ s, Has ht ents s ↔ ∃ x, P x ∧ isLMS T n x ∧ wstr T n x = s) ∧
    u = (allEnts ents ht.htsize).length ∧
    ∀ h, (ents h).length * (ents h).length ≤ 2 * ht.collisions + (ents h).length
  nm1 : 1 ≤ ht.nameBytes
  nm8 : ht.nameBytes ≤ 8
  nm : n / 2 + 1 < 256 ^ ht.nameBytes
  cap : ht.htsize = 67777 ∧ ∀ h, h < ht.htsize → ht.rest.data h ≤ 512
  used : ∀ m, (∀ p, isLMS T n p → m ≤ nx T n p - p + 1) → HashTable.restSum ht + (m + 4) * u ≤ ht.bufsize
  nmeq : ht.nameBytes = nb (n / 2 + 1)
  lay : ∃ ps : List Nat, ps.Pairwise (· > ·) ∧ (∀ x, x ∈ ps ↔ P x ∧ isLMS T n x) ∧ TabLay ht (ps.map (wstr T n))

/-- Inserting one more string. -/
theorem TabLay.add {ht ht' : HashTable} {ws : List (List Nat)} (l : TabLay ht ws) {w : List Nat} (hw : w ∉ ws) (hts : ht.htsize = 67777)
    (hn : ht'.nameBytes = ht.nameBytes) (ho : ∀ h, h ≠ hashL ht.htsize w → ht'.rest.data h = ht.rest.data h)
    (hb : (bodyLen w + ht.nameBytes + 12 < ht.rest.data (hashL ht.htsize w) ∧ ht'.bufsize = ht.bufsize ∧
        ht'.rest.data (hashL ht.htsize w) = ht.rest.data (hashL ht.htsize w) - (bodyLen w + ht.nameBytes)) ∨
      (ht.rest.data (hashL ht.htsize w) ≤ bodyLen w + ht.nameBytes + 12 ∧ ht'.bufsize = ht.bufsize + 512 + (bodyLen w + ht.nameBytes) ∧
        ht'.rest.data (hashL ht.htsize w) = 512)) : TabLay ht' (ws ++ [w]) := by
  rw [hts] at ho hb
  have hlt := HashTable.hashL_lt (show 0 < 67777 by omega) w
  have h1 := l.left _ hlt
  have h2 := l.size
  have hr : recordBytes ht.nameBytes w = bodyLen w + ht.nameBytes := by unfold recordBytes HashTable.bodyLen; rfl
  rcases hb with ⟨b1, b2, b3⟩ | ⟨b1, b2, b3⟩
  · have hadd : plan ht'.nameBytes (ws ++ [w]) = ⟨fun h => if h = hashL 67777 w then (plan ht.nameBytes ws).left h - recordBytes ht.nameBytes w
        else (plan ht.nameBytes ws).left h, (plan ht.nameBytes ws).size, (plan ht.nameBytes ws).seen ++ [w]⟩ := by
      rw [hn, plan_snoc]
      unfold Plan.add
      rw [if_neg (by rw [plan_seen]; exact hw), if_neg (by unfold Plan.Opens; rw [hr, ← h1]; omega)]
    refine ⟨fun h hh => ?_, by rw [hadd]; simp only; omega⟩
    rw [hadd]
    dsimp only
    by_cases he : h = hashL 67777 w
    · rw [if_pos he, he, ← h1, hr]; exact b3
    · rw [if_neg he, ho h he]; exact l.left h hh
  · have hadd : plan ht'.nameBytes (ws ++ [w]) = ⟨fun h => if h = hashL 67777 w then 512
        else (plan ht.nameBytes ws).left h, (plan ht.nameBytes ws).size + 512 + recordBytes ht.nameBytes w, (plan ht.nameBytes ws).seen ++ [w]⟩ := by
      rw [hn, plan_snoc]
      unfold Plan.add
      rw [if_neg (by rw [plan_seen]; exact hw), if_pos (by unfold Plan.Opens; rw [hr, ← h1]; omega)]
    refine ⟨fun h hh => ?_, by rw [hadd]; simp only; omega⟩
    rw [hadd]
    dsimp only
    by_cases he : h = hashL 67777 w
    · rw [if_pos he, he]; exact b3
    · rw [if_neg he, ho h he]; exact l.left h hh

theorem allEnts_added {ents : Nat → List (Nat × List Nat)} {h : Nat} (x : Nat × List Nat) (k : Nat) :
    (allEnts (fun h' => if h' = h then ents h' ++ [x] else ents h') k).length =
      (allEnts ents k).length + if h < k then 1 else 0 := by
  induction k with
  | zero => simp [allEnts]
  | succ k ih =>
    rw [HashTable.allEnts_succ, HashTable.allEnts_succ, List.length_append, List.length_append, ih]
    by_cases h1 : k = h
    · subst h1
      simp
      omega
    · rw [if_neg h1]
      by_cases h2 : h < k
      · rw [if_pos h2, if_pos (by omega)]; omega
      · rw [if_neg h2, if_neg (by omega)]; omega

theorem wstr_eq_substr {T : Mem Nat} {n p : Nat} : wstr T.data n p = substr T p (nx T.data n p - p + 1) := by
  apply List.ext_getElem (by simp [wstr, substr])
  intro j h1 h2
  simp [wstr, substr]

/-- Inserting the string of one more S* position. -/
theorem HtOK.insert {T : Mem Nat} {n : Nat} (I : Input T n) {junk : Fresh} {ht : HashTable}
    {P P' : Nat → Prop} {u p : Nat} (hL : (∀ i, junk i % 256 = 0) ∨ NoOpenAt T.data n p) (h : HtOK T.data n ht P u) (hp : isLMS T.data n p) (hb : ht.bufsize < 2 ^ 62)
    (hr : ht.bufsize + 531 + (nx T.data n p - p) ≤ junk.lim) (hPp : ∀ q, isLMS T.data n q → (P q ↔ p < q))
    (hP' : ∀ q, isLMS T.data n q → (P' q ↔ P q ∨ q = p)) :
    Tot (HashTable.insertString junk ht T (nx T.data n p - p + 1) p) (fun r =>
      HtOK T.data n r.1 P' (if r.2 ≠ 0 then u + 1 else u) ∧ r.1.bufsize + HashTable.restSum ht ≤ ht.bufsize + HashTable.restSum r.1 + 50 + 2 * (nx T.data n p - p)) := by
  obtain ⟨⟨own, ents, E, t, hset, hu, hcl⟩, hN1, hN8, hnm, hcap, hus, hNq, ps, ps1, ps2, ps3⟩ := h
  obtain ⟨p1, p2, _, _⟩ := nx_spec hp
  have hn := I.nlt
  have hsz := I.size
  have hlen : (substr T p (nx T.data n p - p + 1)).length = nx T.data n p - p + 1 := HashTable.substr_length _ _ _
  have hnb : nb (nx T.data n p - p + 1) ≤ 8 := HashTable.nb_le8 (by omega) (by
    have : (2 : Nat) ^ 52 < 2 ^ 63 := by norm_num
    have : (2 : Nat) ^ 63 < 2 ^ 64 := by norm_num
    omega)
  have hbl : bodyLen (substr T p (nx T.data n p - p + 1)) = 2 + nb (nx T.data n p - p + 1) + (nx T.data n p - p + 1) := by
    unfold HashTable.bodyLen; rw [hlen]
  have hps : ∀ x, x ∈ ps ↔ p < x ∧ isLMS T.data n x := by
    intro x
    rw [ps2]
    exact ⟨fun h => ⟨(hPp x h.2).1 h.1, h.2⟩, fun h => ⟨(hPp x h.2).2 h.1, h.2⟩⟩
  have hin : wstr T.data n p ∈ ps.map (wstr T.data n) ↔ Has ht ents (wstr T.data n p) := by
    rw [hset, List.mem_map]
    exact ⟨fun ⟨x, h1, h2⟩ => ⟨x, ((ps2 x).1 h1).1, ((ps2 x).1 h1).2, h2⟩, fun ⟨x, h1, h2, h3⟩ => ⟨x, (ps2 x).2 ⟨h1, h2⟩, h3⟩⟩
  have hps' : (ps ++ [p]).Pairwise (· > ·) ∧ ∀ x, x ∈ ps ++ [p] ↔ P' x ∧ isLMS T.data n x := by
    constructor
    · rw [List.pairwise_append]
      refine ⟨ps1, by simp, ?_⟩
      intro a ha b hb
      rw [List.mem_singleton] at hb
      subst hb
      exact ((hps a).1 ha).1
    · intro x
      rw [List.mem_append, List.mem_singleton, ps2]
      constructor
      · rintro (⟨h1, h2⟩ | rfl)
        · exact ⟨(hP' x h2).2 (Or.inl h1), h2⟩
        · exact ⟨(hP' x hp).2 (Or.inr rfl), hp⟩
      · rintro ⟨h1, h2⟩
        rcases (hP' x h2).1 h1 with h1 | h1
        · exact Or.inl ⟨h1, h2⟩
        · exact Or.inr h1
  have hins := HashTable.insertString_fits t junk T (nx T.data n p - p + 1) p (by omega) (by omega)
    (by
      rw [hbl]
      have : (2 : Nat) ^ 63 = 2 ^ 62 + 2 ^ 62 := by norm_num
      have : (2 : Nat) ^ 52 < 2 ^ 61 := by norm_num
      have : (1024 : Nat) < 2 ^ 61 := by norm_num
      have : (2 : Nat) ^ 62 = 2 ^ 61 + 2 ^ 61 := by norm_num
      omega)
    (by
      rcases hL with hz | hz
      · exact Or.inr (fun _ _ i _ => hz i)
      · by_cases h0 : (nx T.data n p - p + 1) % 256 = 0
        · right
          intro hnin hop
          rw [← wstr_eq_substr] at hnin hop
          refine absurd ?_ (hz ps ps1 hp hps h0 (fun h => hnin (hin.1 h)))
          unfold Plan.Opens
          rw [← hNq, ← ps3.left _ (HashTable.hashL_lt (by omega) _)]
          rw [hcap.1] at hop
          exact hop
        · exact Or.inl h0)
  rw [← wstr_eq_substr] at hins
  refine hins.mono ?_
  rintro ⟨ht', r⟩ (⟨a, b, c, hc, d⟩ | ⟨a, b, own', ents', E', q, t', ad⟩)
  · simp only at b d
    subst b d
    refine ⟨⟨⟨own, ents, E, ⟨t.hts, t.hb, t.restsz, t.headsz, t.bufsz, t.small, t.ownlt, t.empty, t.chain, t.room, t.hash, t.nodup⟩,
      ?_, ?_, fun h => by have := hcl h; simp only; omega⟩, hN1, hN8, hnm, hcap, by
        rw [if_neg (by simp)]; exact hus, hNq, ps ++ [p], hps'.1, hps'.2, ?_⟩, by
        have : HashTable.restSum { ht with collisions := c } = HashTable.restSum ht := rfl
        simp only; omega⟩
    · intro s
      rw [show Has { ht with collisions := c } ents s ↔ Has ht ents s from Iff.rfl, hset s]
      constructor
      · rintro ⟨x, x1, x2, x3⟩; exact ⟨x, (hP' x x2).2 (Or.inl x1), x2, x3⟩
      · rintro ⟨x, x1, x2, x3⟩
        rcases (hP' x x2).1 x1 with x1 | rfl
        · exact ⟨x, x1, x2, x3⟩
        · subst x3; exact (hset _).1 a
    · simpa using hu
    · have hq : plan ht.nameBytes ((ps ++ [p]).map (wstr T.data n)) = plan ht.nameBytes (ps.map (wstr T.data n)) := by
        rw [List.map_append, List.map_cons, List.map_nil, plan_snoc]
        unfold Plan.add
        rw [if_pos (by rw [plan_seen]; exact hin.2 a)]
      exact ⟨fun h hh => by simp only; rw [hq]; exact ps3.left h hh, by simp only; rw [hq]; exact ps3.size⟩
  · simp only at b
    subst b
    have hbs := ad.grow
    rw [wstr_eq_substr, hbl] at hbs
    simp only at hbs
    refine ⟨⟨⟨own', ents', E', t', ?_, ?_, ?_⟩, by rw [ad.nameBytes]; exact hN1, by rw [ad.nameBytes]; exact hN8,
      by rw [ad.nameBytes]; exact hnm, ⟨by rw [ad.htsize]; exact hcap.1, ad.rest hcap.2⟩, ?_, by rw [ad.nameBytes]; exact hNq, ps ++ [p], hps'.1, hps'.2, ?_⟩, by simp only; omega⟩
    · intro s
      have hss := hset s
      unfold Has at hss ⊢
      rw [ad.htsize, ad.ents]
      simp only
      have : (∃ x, P' x ∧ isLMS T.data n x ∧ wstr T.data n x = s) ↔
          (∃ x, P x ∧ isLMS T.data n x ∧ wstr T.data n x = s) ∨ s = wstr T.data n p := by
        constructor
        · rintro ⟨x, x1, x2, x3⟩
          rcases (hP' x x2).1 x1 with x1 | rfl
          · exact Or.inl ⟨x, x1, x2, x3⟩
          · exact Or.inr x3.symm
        · rintro (⟨x, x1, x2, x3⟩ | rfl)
          · exact ⟨x, (hP' x x2).2 (Or.inl x1), x2, x3⟩
          · exact ⟨p, (hP' p hp).2 (Or.inr rfl), hp, rfl⟩
      rw [this, ← hss]
      by_cases hh : hashL ht.htsize s = hashL ht.htsize (wstr T.data n p)
      · rw [if_pos hh, List.map_append, List.mem_append]
        simp only [List.map_cons, List.map_nil, List.mem_singleton]
      · rw [if_neg hh]
        constructor
        · exact Or.inl
        · rintro (h | rfl)
          · exact h
          · exact absurd rfl hh
    · rw [ad.ents, ad.htsize, allEnts_added, if_pos (HashTable.hashL_lt t.hts _), ← hu]
      simp
    · intro h'
      have hc := ad.coll
      have h1 := hcl h'
      rw [ad.ents]
      simp only at hc ⊢
      by_cases hh : h' = hashL ht.htsize (wstr T.data n p)
      · rw [← hh] at hc
        rw [if_pos hh, List.length_append, List.length_singleton]
        ring_nf at h1 ⊢
        omega
      · rw [if_neg hh]; omega
    · intro m hm
      have h1 := hus m hm
      have h2 := hm p hp
      have h3 := ad.used
      rw [wstr_eq_substr, hbl] at h3
      simp only at h3
      rw [if_pos (by simp)]
      simp only
      have := HashTable.nb_pos (nx T.data n p - p + 1)
      have e : (m + 4) * (u + 1) = (m + 4) * u + (m + 4) := by ring
      omega
    · rw [List.map_append, List.map_cons, List.map_nil]
      exact ps3.add (fun h => a (hin.1 h)) hcap.1 ad.nameBytes ad.others ad.block

/-- State of the scan when the positions from `i` on have been visited. -/
structure ExInv (T : Mem Nat) (n : Nat) (i : Nat) (s : ExSt) : Prop where
  M : Histo n s.M T.data (fun q => i ≤ q) 1
  NL : Histo n s.NL T.data (fun q => i ≤ q ∧ isS T.data n q = false) 0
  C : Histo n s.C T.data (fun q => i < q ∧ isLMS T.data n q) 1
  prev : s.prev = if isS T.data n i = true then TYPE_S else TYPE_L
  qp : s.q = s.p
  lo : i < s.p
  hi : s.p ≤ n
  fst : s.p = n ∨ isLMS T.data n s.p
  no : ∀ x, i < x → x < s.p → ¬ isLMS T.data n x
  num : s.numSubs = cnt n (fun q => i < q ∧ isLMS T.data n q)
  ht : HtOK T.data n s.ht (fun q => i < q) s.numUnique
  half : 2 * s.numSubs ≤ n - s.p
  small : s.ht.bufsize ≤ HashTable.restSum s.ht + 50 * s.numSubs + 2 * (n - s.p)

theorem nx_eq {T : Nat → Nat} {n p j : Nat} (hp : isLMS T n p) (hj : p < j) (hjn : j ≤ n) (h1 : j = n ∨ isLMS T n j)
    (h2 : ∀ q, p < q → q < j → ¬ isLMS T n q) : nx T n p = j := (next_unique hp hj hjn h1 h2).symm

theorem ExInv.lms {T : Mem Nat} {n i : Nat} {s : ExSt} (h : ExInv T n i s) (hp : isLMS T.data n i) :
    nx T.data n i = s.p := nx_eq hp h.lo h.hi h.fst h.no

theorem exMaybe_spec {T : Mem Nat} {n : Nat} (I : Input T n) {junk : Fresh} (hL : LmsLenOK junk T.data n) {i : Nat}
    (hi : i + 1 < n) {s : ExSt} (hM : s.M.size = 258)
    (h : ∀ M', Histo n M' T.data (fun q => i + 1 ≤ q) 1 → ExInv T n (i + 1) { s with M := M' })
    (hM' : Histo n s.M T.data (fun q => i ≤ q) 1)
    (hd : T.data (i + 1) < T.data i) (hh : ∃ M', Histo n M' T.data (fun q => i + 1 ≤ q) 1) :
    Tot (exMaybe junk T i s) (fun s' => s'.M = s.M ∧ s'.NL = s.NL ∧
      Histo n s'.C T.data (fun q => i < q ∧ isLMS T.data n q) 1 ∧ s'.q = s'.p ∧ i < s'.p ∧ s'.p ≤ n ∧
      (s'.p = n ∨ isLMS T.data n s'.p) ∧ (∀ x, i < x → x < s'.p → ¬ isLMS T.data n x) ∧
      s'.numSubs = cnt n (fun q => i < q ∧ isLMS T.data n q) ∧ HtOK T.data n s'.ht (fun q => i < q) s'.numUnique ∧
      2 * s'.numSubs ≤ n - s'.p ∧ s'.ht.bufsize ≤ HashTable.restSum s'.ht + 50 * s'.numSubs + 2 * (n - s'.p)) := by
  obtain ⟨M', hM''⟩ := hh
  have g := h M' hM''
  have hn := I.nlt
  have hsz := I.size
  have hSi : isS T.data n i = false := (L_iff (by omega)).2 (Or.inr ⟨hi, Or.inl hd⟩)
  unfold exMaybe
  have hprev := g.prev
  simp only at hprev
  cases hS : isS T.data n (i + 1) with
  | true =>
    rw [hS] at hprev
    simp only [if_true] at hprev
    rw [if_pos hprev]
    have hl : isLMS T.data n (i + 1) := ⟨by omega, hi, hS, by simpa using hSi⟩
    have hnx := g.lms hl
    have hqp := g.qp
    simp only at hnx hqp
    unfold exFound
    rw [Mem.rd_ok _ (by omega), HashTable.ok_bind]
    refine Tot.bind (Histo.bump (P' := fun q => i < q ∧ isLMS T.data n q) g.C (by omega) hi (I.byte _ (by omega)) (by omega) ?_) ?_
    · intro q hq
      constructor
      · rintro ⟨h1, h2⟩
        rcases Nat.lt_or_ge (i + 1) q with h3 | h3
        · exact Or.inl ⟨h3, h2⟩
        · exact Or.inr (by omega)
      · rintro (⟨h1, h2⟩ | rfl)
        · exact ⟨by omega, h2⟩
        · exact ⟨by omega, hl⟩
    · intro C' hC'
      obtain ⟨nxa, nxb, _, _⟩ := nx_spec hl
      rw [hqp, ← hnx, subU64_eq (by omega), addU64_eq (by have := I.nlt; omega)]
      have hsm := g.small
      have hnum := g.num
      have hhalf := g.half
      have hhi := g.hi
      have hrs := HashTable.restSum_le g.ht.cap.2
      rw [g.ht.cap.1] at hrs
      simp only at hsm hnum hhalf hrs hhi
      have hcl := cnt_le n (fun q => i + 1 < q ∧ isLMS T.data n q)
      have hroom := hL.room
      refine Tot.bind (HtOK.insert I (hL.ok.imp id (fun h => h _)) g.ht hl ?_ ?_ (fun _ _ => Iff.rfl) (P' := fun q => i < q) ?_) ?_
      · have : (2 : Nat) ^ 57 * 27 + 512 * 67777 < 2 ^ 62 := by norm_num
        omega
      · unfold enoughFor at hroom; omega
      · intro q hq
        constructor
        · intro h1; omega
        · rintro (h1 | h1) <;> omega
      · rintro ⟨ht', r⟩ ⟨k1, k2⟩
        simp only at k1 k2
        obtain ⟨nx1, nx2, _, _⟩ := nx_spec hl
        simp only [Tot_ok, true_and]
        refine ⟨hC', by omega, by omega, Or.inr hl, fun x x1 x2 => by omega, ?_, k1, by omega, ?_⟩
        · rw [hnum]
          have := cnt_step (n := n) (i := i + 1) (P := isLMS T.data n) hi
          rw [if_pos hl] at this
          exact this.symm
        · omega
  | false =>
    rw [hS] at hprev
    simp only [Bool.false_eq_true, if_false] at hprev
    rw [if_neg (by rw [hprev]; decide), Tot_ok]
    have hnl : ¬ isLMS T.data n (i + 1) := fun hl => by rw [hl.2.2.1] at hS; exact absurd hS (by simp)
    have key : ∀ q, (i < q ∧ isLMS T.data n q) ↔ (i + 1 < q ∧ isLMS T.data n q) := fun q => by
      constructor
      · rintro ⟨h1, h2⟩
        refine ⟨?_, h2⟩
        rcases Nat.lt_or_ge (i + 1) q with h3 | h3
        · exact h3
        · have : q = i + 1 := by omega
          subst this; exact absurd h2 hnl
      · rintro ⟨h1, h2⟩; exact ⟨by omega, h2⟩
    refine ⟨rfl, rfl, g.C.congr (fun q _ => key q), g.qp, by have := g.lo; simp only at this; omega, g.hi, g.fst, ?_, ?_, ?_, g.half, g.small⟩
    · intro x x1 x2 hl
      exact g.no x ((key x).1 ⟨x1, hl⟩).1 x2 hl
    · have := g.num; simp only at this; rw [this]
      exact cnt_congr (fun q _ => (key q).symm)
    · obtain ⟨⟨own, ents, E, t, hset, hu, hcl⟩, hr1, hr2, hr3, hr4, hr5, hr6, ps, ps1, ps2, ps3⟩ := g.ht
      refine ⟨⟨own, ents, E, t, fun s' => ?_, hu, hcl⟩, hr1, hr2, hr3, hr4, hr5, hr6, ps, ps1,
        fun x => by rw [ps2]; exact (key x).symm, ps3⟩
      rw [hset s']
      constructor
      · rintro ⟨x, x1, x2, x3⟩; exact ⟨x, by omega, x2, x3⟩
      · rintro ⟨x, x1, x2, x3⟩; exact ⟨x, ((key x).1 ⟨x1, x2⟩).1, x2, x3⟩

theorem exStep_spec {T : Mem Nat} {n : Nat} (I : Input T n) {junk : Fresh} (hL : LmsLenOK junk T.data n) {i : Nat}
    (hi : i + 1 < n) {s : ExSt} (g : ExInv T n (i + 1) s) : Tot (exStep junk T i s) (ExInv T n i) := by
  have hn := I.nlt
  have hsz := I.size
  unfold exStep
  rw [Mem.rd_ok _ (by omega), HashTable.ok_bind, Mem.rd_ok _ (by omega), HashTable.ok_bind]
  refine Tot.bind (Histo.bump (P' := fun q => i ≤ q) g.M (by omega) (show i < n by omega) (I.byte _ (by omega)) (by omega)
    (fun q hq => by omega)) ?_
  intro M' hM'
  have hNL' : ∀ {NL : Mem Nat}, Histo n NL T.data (fun q => i + 1 ≤ q ∧ isS T.data n q = false) 0 → isS T.data n i = false →
      Tot (bump NL (T.data i + 1)) (fun a => Histo n a T.data (fun q => i ≤ q ∧ isS T.data n q = false) 0) := by
    intro NL hN hS
    refine Histo.bump hN (by omega) (show i < n by omega) (I.byte _ (by omega)) (by omega) ?_
    intro q hq
    constructor
    · rintro ⟨h1, h2⟩
      rcases Nat.lt_or_ge i q with h3 | h3
      · exact Or.inl ⟨h3, h2⟩
      · exact Or.inr (by omega)
    · rintro (⟨h1, h2⟩ | rfl)
      · exact ⟨by omega, h2⟩
      · exact ⟨by omega, hS⟩
  have hNLs : ∀ {NL : Mem Nat}, Histo n NL T.data (fun q => i + 1 ≤ q ∧ isS T.data n q = false) 0 → isS T.data n i = true →
      Histo n NL T.data (fun q => i ≤ q ∧ isS T.data n q = false) 0 := by
    intro NL hN hS
    refine hN.congr (fun q hq => ?_)
    constructor
    · rintro ⟨h1, h2⟩
      rcases Nat.lt_or_ge i q with h3 | h3
      · exact ⟨h3, h2⟩
      · have : q = i := by omega
        subst this; rw [hS] at h2; exact absurd h2 (by simp)
    · rintro ⟨h1, h2⟩; exact ⟨by omega, h2⟩
  -- when `i + 1` is not S*
  have same : ¬ isLMS T.data n (i + 1) → ∀ (NL' : Mem Nat) (pv : Nat),
      Histo n NL' T.data (fun q => i ≤ q ∧ isS T.data n q = false) 0 →
      pv = (if isS T.data n i = true then TYPE_S else TYPE_L) →
      ExInv T n i { s with M := M', NL := NL', prev := pv } := by
    intro hnl NL' pv h1 h2
    have key : ∀ q, (i < q ∧ isLMS T.data n q) ↔ (i + 1 < q ∧ isLMS T.data n q) := fun q => by
      constructor
      · rintro ⟨h1, h2⟩
        refine ⟨?_, h2⟩
        rcases Nat.lt_or_ge (i + 1) q with h3 | h3
        · exact h3
        · have : q = i + 1 := by omega
          subst this; exact absurd h2 hnl
      · rintro ⟨h1, h2⟩; exact ⟨by omega, h2⟩
    refine ⟨hM', h1, g.C.congr (fun q _ => key q), h2, g.qp, by have := g.lo; simp only; omega, g.hi, g.fst, ?_, ?_, ?_, g.half, g.small⟩
    · intro x x1 x2 hl
      exact g.no x ((key x).1 ⟨x1, hl⟩).1 x2 hl
    · show s.numSubs = _
      rw [g.num]
      exact cnt_congr (fun q _ => (key q).symm)
    · obtain ⟨⟨own, ents, E, t, hset, hu, hcl⟩, hr1, hr2, hr3, hr4, hr5, hr6, ps, ps1, ps2, ps3⟩ := g.ht
      refine ⟨⟨own, ents, E, t, fun s' => ?_, hu, hcl⟩, hr1, hr2, hr3, hr4, hr5, hr6, ps, ps1,
        fun x => by rw [ps2]; exact (key x).symm, ps3⟩
      show Has s.ht ents s' ↔ _
      rw [hset s']
      constructor
      · rintro ⟨x, x1, x2, x3⟩; exact ⟨x, by omega, x2, x3⟩
      · rintro ⟨x, x1, x2, x3⟩; exact ⟨x, ((key x).1 ⟨x1, x2⟩).1, x2, x3⟩
  by_cases h1 : T.data i < T.data (i + 1)
  · rw [if_pos h1, Tot_ok]
    have hS : isS T.data n i = true := (S_iff (by omega)).2 ⟨hi, Or.inl h1⟩
    have hnl : ¬ isLMS T.data n (i + 1) := fun hl => by
      have := hl.2.2.2; rw [show i + 1 - 1 = i by omega, hS] at this; exact absurd this (by simp)
    exact same hnl s.NL TYPE_S (hNLs g.NL hS) (by rw [hS]; rfl)
  · rw [if_neg h1]
    by_cases h2 : T.data (i + 1) < T.data i
    · rw [if_pos h2]
      have hS : isS T.data n i = false := (L_iff (by omega)).2 (Or.inr ⟨hi, Or.inl h2⟩)
      refine Tot.bind (exMaybe_spec I hL hi (s := { s with M := M' }) hM'.sz (fun M'' hM'' => ?_) hM' h2 ⟨s.M, g.M⟩) ?_
      · exact ⟨hM'', g.NL, g.C, g.prev, g.qp, g.lo, g.hi, g.fst, g.no, g.num, g.ht, g.half, g.small⟩
      · rintro s' ⟨a1, a2, a3, a4, a5, a6, a7, a8, a9, a10, a11, a12⟩
        have hN : Histo n s'.NL T.data (fun q => i + 1 ≤ q ∧ isS T.data n q = false) 0 := by rw [a2]; exact g.NL
        refine Tot.bind (hNL' hN hS) ?_
        intro NL' hNL''
        rw [Tot_ok]
        exact ⟨by rw [a1]; exact hM', hNL'', a3, by simp [hS], a4, a5, a6, a7, a8, a9, a10, a11, a12⟩
    · rw [if_neg h2]
      have heq : T.data i = T.data (i + 1) := by omega
      have hS := isS_succ_same hi heq
      have hnl : ¬ isLMS T.data n (i + 1) := fun hl => by
        have h3 := hl.2.2.2
        rw [show i + 1 - 1 = i by omega, hS, hl.2.2.1] at h3; exact absurd h3 (by simp)
      have hprev := g.prev
      cases hS' : isS T.data n (i + 1) with
      | true =>
        rw [hS'] at hprev hS
        simp only [if_true] at hprev
        rw [if_neg (by rw [hprev]; decide), Tot_ok]
        have := same hnl s.NL s.prev (hNLs g.NL hS) (by rw [hS, hprev]; rfl)
        exact this
      | false =>
        rw [hS'] at hprev hS
        simp only [Bool.false_eq_true, if_false] at hprev
        rw [if_pos hprev]
        refine Tot.bind (hNL' g.NL hS) ?_
        intro NL' hNL''
        rw [Tot_ok]
        exact same hnl NL' s.prev hNL'' (by rw [hS, hprev]; rfl)

/-- What `extract_LMS_strings` leaves in the container. -/
structure Extracted (T : Nat → Nat) (n : Nat) (ct : Container) (ht : HashTable) : Prop where
  htab : ct.hashtable = some ht
  nn : ct.n = n
  M : Histo n ct.M T (fun _ => True) 1
  NL : Histo n ct.NL T (fun q => isS T n q = false) 0
  C : Histo n ct.C T (fun q => isLMS T n q) 1
  M2 : ct.M2.size = 258
  M3 : ct.M3.size = 258
  C2 : ct.C2.size = 258
  num : ct.numSubs = lmsN T n
  headEnd : ct.headEnd = lpos T n 0
  hok : HtOK T n ht (fun _ => True) ct.numUnique
  small : ht.bufsize ≤ 34701824 + 27 * (n - ct.headEnd)

theorem lpos0 {T : Nat → Nat} {n p : Nat} (hp : p ≤ n) (h1 : p = n ∨ isLMS T n p) (h2 : ∀ x, 0 < x → x < p → ¬ isLMS T n x) :
    lpos T n 0 = p := by
  rcases h1 with rfl | h1
  · apply lpos_end
    have : lmsN T p = 0 := cnt_false (fun q hq hl => h2 q hl.1 hq hl)
    omega
  · have : tix T n p = 0 := cnt_false (fun q hq hl => h2 q hl.1.1 hl.2 hl.1)
    rw [← this, lpos_tix h1]

/-- The state before the scan. -/
theorem extract_start {T : Mem Nat} {n : Nat} (I : Input T n) : ∃ ht0 M1 M2 NL1 C1,
    HashTable.new 67777 n = .ok ht0 ∧ bump (Container.new n).M 0 = .ok M1 ∧ T.rd (n - 1) = .ok (T.data (n - 1)) ∧
    bump M1 (T.data (n - 1) + 1) = .ok M2 ∧ bump (Container.new n).NL (T.data (n - 1) + 1) = .ok NL1 ∧
    bump (Container.new n).C 0 = .ok C1 ∧ ExInv T n (n - 1) ⟨M2, NL1, C1, ht0, 0, 0, TYPE_L, n, n⟩ := by
  have hn := I.nlt
  have hn3 := I.n3
  have hsz := I.size
  obtain ⟨ht0, e0, t0, hh1, hh2, _, hh6, hh3, hh4, hh5, hh7⟩ := Tot_iff.1 (HashTable.new_tab_nb 67777 n (by omega)
    (by have : (2 : Nat) ^ 52 < 2 ^ 64 := by norm_num
        omega))
  have hsM : (Container.new n).M.size = 258 := rfl
  have hz : ∀ (a : Mem Nat) (P : Nat → Prop), a.size = 258 → (∀ i, a.data i = 0) → (∀ q, q < n → ¬ P q) →
      Histo n a T.data P 0 := fun a P h1 h2 h3 =>
    ⟨h1, h2 0, fun c _ => by rw [h2]; exact (cnt_false (fun q hq hh => h3 q hq hh.1)).symm⟩
  have hb0 : ∀ (a : Mem Nat) (P : Nat → Prop), a.size = 258 → (∀ i, a.data i = 0) → (∀ q, q < n → ¬ P q) →
      Tot (bump a 0) (fun a' => Histo n a' T.data P 1) := by
    intro a P h1 h2 h3
    rw [bump_tot (by omega) (by rw [h2]; norm_num), Tot_ok]
    refine ⟨h1, by simp [h2], fun c _ => ?_⟩
    rw [Mem.upd_data_ne _ _ (by omega), h2]; exact (cnt_false (fun q hq hh => h3 q hq hh.1)).symm
  obtain ⟨M1, f1, hM1⟩ := Tot_iff.1 (hb0 (Container.new n).M (fun q => n ≤ q) rfl (fun _ => rfl) (by intro q hq; omega))
  obtain ⟨M2, f2, hM2⟩ := Tot_iff.1 (hM1.bump (P' := fun q => n - 1 ≤ q) (i := n - 1) (by omega) (by omega) (I.byte _ (by omega)) (by omega)
    (fun q hq => by omega))
  have hlast : isS T.data n (n - 1) = false := isS_last (by omega)
  obtain ⟨NL1, f3, hNL1⟩ := Tot_iff.1 (Histo.bump (P := fun q => n ≤ q) (P' := fun q => n - 1 ≤ q ∧ isS T.data n q = false) (i := n - 1)
    (hz (Container.new n).NL _ rfl (fun _ => rfl) (by intro q hq; omega)) (by omega) (by omega) (I.byte _ (by omega)) (by omega)
    (fun q hq => by
      constructor
      · rintro ⟨h1, _⟩; omega
      · rintro (h1 | rfl)
        · omega
        · exact ⟨Nat.le_refl _, hlast⟩))
  have hnol : ∀ q, n - 1 < q → ¬ isLMS T.data n q := fun q hq hl => by have := hl.2.1; omega
  obtain ⟨C1, f4, hC1⟩ := Tot_iff.1 (hb0 (Container.new n).C (fun q => n - 1 < q ∧ isLMS T.data n q) rfl (fun _ => rfl)
    (fun q _ h => hnol q h.1 h.2))
  refine ⟨ht0, M1, M2, NL1, C1, e0, f1, Mem.rd_ok _ (by omega), f2, f3, f4, ?_⟩
  · refine ⟨hM2, hNL1, hC1, by simp [hlast], rfl, by simp only; omega, Nat.le_refl _, Or.inl rfl, fun x x1 _ => hnol x x1, ?_, ?_, by simp only; omega, ?_⟩
    · exact (cnt_false (fun q _ h => hnol q h.1 h.2)).symm
    · refine ⟨⟨_, _, _, t0, fun s => ?_, ?_, by simp⟩, hh4, hh5, hh3, ⟨hh1, fun h _ => ?_⟩, ?_, hh7, [], List.Pairwise.nil, ?_, ?_⟩
      · unfold Has
        simp only [List.map_nil, List.not_mem_nil, false_iff]
        rintro ⟨x, x1, x2, _⟩
        exact hnol x x1 x2
      · simp [allEnts]
      · rw [(t0.empty h (by omega) (hh6 h)).2]; omega
      · have h0 : HashTable.restSum ht0 = 0 := by
          unfold HashTable.restSum
          have : (List.range ht0.htsize).map ht0.rest.data = (List.range ht0.htsize).map (fun _ => 0) :=
            List.map_congr_left (fun h hh => by rw [List.mem_range] at hh; exact (t0.empty h hh (hh6 h)).2)
          rw [this]
          simp
        intro m _
        show HashTable.restSum ht0 + (m + 4) * 0 ≤ ht0.bufsize
        omega
      · intro x
        simp only [List.not_mem_nil, false_iff]
        rintro ⟨x1, x2⟩
        exact hnol x x1 x2
      · exact ⟨fun h hh => (t0.empty h (by omega) (hh6 h)).2, hh2⟩
    · simp only; omega

theorem extractLMS_spec {T : Mem Nat} {n : Nat} (I : Input T n) {junk : Fresh} (hL : LmsLenOK junk T.data n) :
    Tot (extractLMS junk T n) (fun ct => ∃ ht, Extracted T.data n ct ht) := by
  have hn := I.nlt
  have hn3 := I.n3
  have hsz := I.size
  unfold extractLMS
  rw [if_neg (by omega)]
  obtain ⟨ht0, M1, M2, NL1, C1, e0, e1, e2, e3, e4, e5, h0⟩ := extract_start I
  rw [e0, HashTable.ok_bind, e1, HashTable.ok_bind, e2, HashTable.ok_bind, e3, HashTable.ok_bind, e4, HashTable.ok_bind, e5,
    HashTable.ok_bind]
  refine Tot.bind (loopDown_spec (ExInv T n) (n - 1) _ _ h0 (fun i s h1 h2 => exStep_spec I hL (by omega) h2)) ?_
  intro s g
  rw [Tot_ok]
  refine ⟨s.ht, rfl, rfl, ?_, ?_, ?_, rfl, rfl, rfl, ?_, ?_, ?_, ?_⟩
  · exact g.M.congr (fun q _ => by simp)
  · exact g.NL.congr (fun q _ => by simp)
  · exact g.C.congr (fun q _ => ⟨fun h => ⟨h.1, h⟩, fun h => h.2⟩)
  · show s.numSubs = _
    rw [g.num]
    exact cnt_congr (fun q _ => ⟨fun h => h.2, fun h => ⟨h.1, h⟩⟩)
  · exact (lpos0 g.hi g.fst g.no).symm
  · obtain ⟨⟨own, ents, E, t, hset, hu, hcl⟩, hr1, hr2, hr3, hr4, hr5, hr6, ps, ps1, ps2, ps3⟩ := g.ht
    refine ⟨⟨own, ents, E, t, fun s' => ?_, hu, hcl⟩, hr1, hr2, hr3, hr4, hr5, hr6, ps, ps1, fun x => ?_, ps3⟩
    swap
    · rw [ps2]
      exact ⟨fun h => ⟨trivial, h.2⟩, fun h => ⟨h.2.1, h.2⟩⟩
    rw [hset s']
    constructor
    · rintro ⟨x, x1, x2, x3⟩; exact ⟨x, trivial, x2, x3⟩
    · rintro ⟨x, x1, x2, x3⟩; exact ⟨x, x2.1, x2, x3⟩
  · have h1 := g.small
    have h2 := g.half
    have h3 := HashTable.restSum_le g.ht.cap.2
    rw [g.ht.cap.1] at h3
    simp only
    omega

end Flbwt
