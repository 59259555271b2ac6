import Verif.Dirty
import Verif.DirtyInduce
import Verif.FrontMain

/-!
# A head record whose stored length is one too large (used by C92)

What `bwt_is` does on a non-increasing text when the length of the head record is a multiple of 256 (not of 65536) and the last
byte of its length field holds the old value 1.
-/

namespace Flbwt

open HashTable (ok_bind nb nb_le8 nb_pos nb_lt nb_le nb_unique LenAt getLength getLength_eq)
open SaStore LawfulSaStore

/-- Writing the head record when the last byte of its length field holds 1. -/
theorem writeHead_one {NB : Nat} {T : Mem Nat} {h u : Nat} {buf : Mem Nat} {r : Nat} (hT : h + 1 ≤ T.size) (hh : h + 1 < 2 ^ 62)
    (hs : r + 2 + nb (h + 1) + (h + 2) + NB ≤ buf.size) (hm : (h + 1) % 256 = 0) (hm2 : (h + 1) / 256 % 256 ≠ 0)
    (hj : buf.data (r + nb (h + 1)) = 1) :
    Tot (writeHead NB T h u buf r) (fun x => x.1.size = buf.size ∧ x.2.1 = r + 2 + nb (h + 1) ∧
      x.2.2 = r + 2 + nb (h + 1) + (h + 1) + NB ∧ LenAt x.1 r (h + 2) ∧
      ∀ j, j < h + 1 → x.1.data (r + 2 + nb (h + 1) + j) = T.data j) := by
  obtain ⟨hnb, hset⟩ := setLength_last buf r (h + 1) 1 (by omega) hh (by omega) hm hm2 (by omega) hj
  rw [show h + 1 + 1 = h + 2 by omega] at hnb hset
  unfold writeHead
  refine Tot.bind hset ?_
  rintro b1 ⟨a1, a2, a3⟩
  refine Tot.bind (HashTable.setName_tot NB (u + 1) a2 (by omega) (by omega) (by rw [hnb]; omega)) ?_
  rintro b2 ⟨c1, _, c3⟩
  rw [hnb] at c3
  have l2 : LenAt b2 r (h + 2) := a2.congr (fun i i1 i2 => c3 i (by rw [hnb] at i2; omega))
  unfold HashTable.getLenlen
  rw [Mem.rd_ok _ (by omega), ok_bind, Mem.rd_ok _ (by omega), ok_bind, l2.1, hnb]
  rw [Mem.wr_ok _ _ (by omega), ok_bind]
  have := loopUp_spec (fun k (b : Mem Nat) => b.size = buf.size ∧ (∀ j, j < k → b.data (r + 2 + nb (h + 1) + j) = T.data j) ∧
      ∀ i, i < r + 2 + nb (h + 1) → b.data i = (b2.upd (r + (1 + nb (h + 1))) ((T.data 0 + 1) % 256)).data i) 0 (h + 1)
    (b2.upd (r + (1 + nb (h + 1))) ((T.data 0 + 1) % 256))
    (fun i buf => do
      let c ← T.rd i
      buf.wr (r + (1 + nb (h + 1)) + 1 + i) c) ⟨by simp only [Mem.upd_size]; omega, by intro j hj; omega, fun _ _ => rfl⟩ (by
    rintro k b _ k2 ⟨d1, d2, d3⟩
    rw [Mem.rd_ok _ (by omega), ok_bind, Mem.Tot_wr]
    refine ⟨by omega, d1, ?_, ?_⟩
    · intro j hj
      by_cases hjk : j = k
      · subst hjk
        rw [show r + 2 + nb (h + 1) + j = r + (1 + nb (h + 1)) + 1 + j by omega, Mem.upd_data_self]
      · rw [Mem.upd_data_ne _ _ (by omega)]; exact d2 j (by omega)
    · intro i hi
      rw [Mem.upd_data_ne _ _ (by omega)]; exact d3 i hi)
  refine Tot.bind this ?_
  rintro b ⟨d1, d2, d3⟩
  rw [Tot_ok]
  refine ⟨d1, by simp only; omega, by simp only; omega, ?_, ?_⟩
  · refine l2.congr (fun i i1 i2 => ?_)
    rw [hnb] at i2
    simp only
    rw [d3 i (by omega), Mem.upd_data_ne _ _ (by omega)]
  · intro j hj
    simp only
    exact d2 j (by omega)

/-- A text that never increases has no S* position. -/
theorem noS_of_dec {T : Nat → Nat} {n : Nat} (hd : ∀ j, j + 1 < n → T (j + 1) ≤ T j) : ∀ k, k < n → isS T n (n - 1 - k) = false := by
  intro k
  induction k with
  | zero => intro h; exact isS_last (by omega)
  | succ k ih =>
    intro h
    have h1 := ih (by omega)
    have h2 := hd (n - 1 - (k + 1)) (by omega)
    rw [show n - 1 - (k + 1) + 1 = n - 1 - k by omega] at h2
    refine (L_iff (by omega)).2 (Or.inr ⟨by omega, ?_⟩)
    rw [show n - 1 - (k + 1) + 1 = n - 1 - k by omega]
    rcases Nat.lt_or_eq_of_le h2 with h3 | h3
    · exact Or.inl h3
    · exact Or.inr ⟨h3.symm, h1⟩

theorem noLMS_of_dec {T : Nat → Nat} {n : Nat} (hd : ∀ j, j + 1 < n → T (j + 1) ≤ T j) (q : Nat) : ¬ isLMS T n q := by
  rintro ⟨_, h2, h3, _⟩
  have := noS_of_dec hd (n - 1 - q) (by omega)
  rw [show n - 1 - (n - 1 - q) = q by omega, h3] at this
  exact absurd this (by simp)

/-- What is known before the suffix array is computed: no S* strings, the head record at `r` with stored length `n + 2`. -/
structure HeadOne (T : Mem Nat) (n : Nat) (ct : Container) (ht : HashTable) (s : Mem Nat) (r : Nat) : Prop where
  htab : ct.hashtable = some ht
  nn : ct.n = n
  counts : Counts T.data n ct.M ct.NL ct.C
  sM2 : ct.M2.size = 258
  sM3 : ct.M3.size = 258
  sC2 : ct.C2.size = 258
  num : ct.numSubs = 0
  uni : ct.numUnique = 0
  ssz : s.size = 2
  s1 : s.data 1 = r
  len : LenAt ht.buf r (n + 2)
  nbl : nb (n + 2) = nb (n + 1)
  txt : ∀ j, j ≤ n → ht.buf.data (r + 2 + nb (n + 1) + j) = T.data j
  bsz : r + 2 + nb (n + 1) + (n + 2) ≤ ht.buf.size
  base : ct.bwpBase = (r : Int) - 1
  last : ct.lastptr = ((r + 2 + nb (n + 1) : Nat) : Int)
  w1 : 1 ≤ ct.bwpWidth
  w63 : ct.bwpWidth ≤ 63
  wid : 3 + nb (n + 1) + (n + 2) < 2 ^ ct.bwpWidth
  smax : 3 + nb (n + 1) + (n + 2) ≤ ct.saMax ∧ ct.saMax < 2 ^ 62

/-- The first two stages. -/
theorem stages_one (w : World) {T : Mem Nat} {n : Nat} (I : Input T n) (hd : ∀ j, j + 1 < n → T.data (j + 1) ≤ T.data j)
    (hroom : enoughFor n ≤ w.junk.lim) (hS : SortsOK w.sorter) (hm : (n + 1) % 256 = 0) (hm2 : (n + 1) / 256 % 256 ≠ 0)
    (hjunk : ∀ i, w.junk i % 256 = 1) : ∃ ct0 s ct ht r, extractLMS w.junk T n = .ok ct0 ∧
      sortLMS w.sorter w.pj w.junk T ct0 = .ok (s, ct) ∧ HeadOne T n ct ht s r := by
  have hn := I.nlt
  have hn3 := I.n3
  have hTs := I.size
  have hno := noLMS_of_dec hd
  have hnum0 : lmsN T.data n = 0 := cnt_false (fun q _ h => hno q h)
  have hL : LmsLenOK w.junk T.data n := ⟨hroom, Or.inr (NoOpen.of_lengths fun p hp => absurd hp (hno p))⟩
  obtain ⟨ct, e1, ht, X⟩ := Tot_iff.1 (extractLMS_spec I hL)
  have hhe : ct.headEnd = n := by rw [X.headEnd]; exact lpos_end (by omega)
  have hu0 : ct.numUnique = 0 := by
    obtain ⟨own, ents, E, t, hset, hu, _⟩ := X.hok.tab
    have := uniq_le (T := T.data) (n := n) t (fun x => by rw [hset x]; simp)
    omega
  have hN1 := X.hok.nm1
  have hN8 := X.hok.nm8
  obtain ⟨⟨ht2, s2⟩, e2, own, ents, E, strAt, N⟩ := Tot_iff.1 (sortNames_spec I w.junk hroom hS w.pj X)
  have hss := N.ssz
  have hbz := N.bsz
  have hnb := N.nbs
  have hbs := N.t2.bufsz
  have hjd := N.junkd
  have hsm := X.small
  simp only at hss hbz hnb hbs hjd
  rw [hhe] at hbz hsm
  have h57 : (2 : Nat) ^ 57 * 32 = 2 ^ 62 := by norm_num
  have hnb8 : nb (n + 1) ≤ 8 := nb_le8 (by omega) (by omega)
  have hnb1 := nb_pos (n + 1)
  have key : Tot (sortLMS w.sorter w.pj w.junk T ct) (fun x => ∃ ht', HeadOne T n x.2 ht' x.1 ht.bufsize) := by
    unfold sortLMS
    rw [X.htab]
    simp only
    rw [e2, ok_bind]
    unfold sortHead
    rw [hu0] at hss
    rw [hu0, hhe, Mem.wr_ok _ _ (by simp only; omega), ok_bind]
    simp only
    refine Tot.bind (writeHead_one (NB := ht2.nameBytes) (T := T) (h := n) (u := 0) (buf := ht2.buf) (r := ht.bufsize) (by omega)
      (by omega) (by omega) hm hm2 (by rw [hjd _ (by omega), hjunk])) ?_
    rintro ⟨buf3, lp, r0⟩ ⟨d1, d2, d3, d4, d5⟩
    simp only at d1 d2 d3 d4 d5
    simp only
    rw [Mem.wr_ok _ _ (by simp only [Mem.upd_size]; omega), ok_bind]
    refine Tot.bind (writeEnd_spec (NB := ht2.nameBytes) (buf := buf3) (r := r0) (by omega)) ?_
    rintro buf4 ⟨f1, f2, f3⟩
    obtain ⟨s, hs⟩ : ∃ s : Mem Nat, s = (s2.upd (0 + 1) ht.bufsize).upd 0 r0 := ⟨_, rfl⟩
    rw [← hs]
    have hssz : s.size = 2 := by rw [hs]; simp only [Mem.upd_size]; omega
    have hs0 : s.data 0 = r0 := by rw [hs, Mem.upd_data_self]
    have hs1 : s.data 1 = ht.bufsize := by rw [hs, Mem.upd_data_ne _ _ (by omega), Mem.upd_data_self]
    refine Tot.bind (minMax_spec (s := s) (u := 0) (by omega) (by
      intro i hi
      have h3 : i = 0 ∨ i = 1 := by omega
      rcases h3 with rfl | rfl
      · exact Nat.le_refl _
      · omega)) ?_
    rintro ⟨mn, mx⟩ ⟨g1, g2, i0, g3, g4⟩
    simp only at g1 g2 g4
    have hmn1 := g2 1 (by omega)
    have hmn : mn = ht.bufsize := by
      have h3 : i0 = 0 ∨ i0 = 1 := by omega
      rcases h3 with rfl | rfl
      · omega
      · omega
    obtain ⟨v, ev, v1, v2, v3, v4⟩ := Tot_iff.1 (positionOfMsb_spec (mx - mn + 2) (by omega) (by omega))
    have hn1 : nb 1 = 1 := HashTable.nb_small (by omega) (by omega)
    have hv63 : v ≤ 63 := by
      by_contra hc
      have : (2 : Nat) ^ 63 ≤ 2 ^ (v - 1) := Nat.pow_le_pow_right (by norm_num) (by omega)
      omega
    simp only
    rw [subU64_eq (show mn ≤ mx by omega), ev, ok_bind, g1, hs0, getLength_eq f2 (by omega) (by omega) (by omega), ok_bind]
    unfold HashTable.getFirstCharacterPointer
    rw [Mem.rd_ok _ (by omega), ok_bind, ok_bind, f2.1, hn1, Tot_ok, toU64_eq (by omega)]
    have hC : Counts T.data n ct.M ct.NL ct.C := by
      refine ⟨by omega, X.M.sz, X.NL.sz, X.C.sz, X.M.zero, X.NL.zero, fun c hc => ?_, fun c hc => ?_⟩
      · rw [X.M.val c hc]; exact cnt_congr (fun q _ => by simp)
      · rw [X.NL.val c hc]; rfl
    have hnb2 : nb (n + 2) = nb (n + 1) :=
      (setLength_last ⟨1 + nb (n + 1), fun _ => 1⟩ 0 (n + 1) 1 (by omega) (by omega) (by simp only; omega) hm hm2 (by omega) rfl).1
    refine ⟨_, rfl, X.nn, hC, X.M2, X.M3, X.C2, by simp only; rw [X.num]; exact hnum0, rfl, hssz, hs1, ?_, hnb2, ?_, ?_, ?_, ?_, v1, hv63, ?_, ?_⟩
    · simp only
      refine d4.congr (fun i i1 i2 => f3 i ?_)
      rw [hnb2] at i2
      omega
    · intro j hj
      simp only
      rw [f3 _ (by omega), d5 j (by omega)]
    · simp only; omega
    · simp only; rw [hmn]
    · simp only; rw [d2]
    · simp only; omega
    · simp only; constructor <;> omega
  obtain ⟨⟨s, ct'⟩, e3, ht', H⟩ := Tot_iff.1 key
  exact ⟨ct, s, ct', ht', _, e1, e3, H⟩

/-- The third stage. -/
theorem short_one {T : Mem Nat} {n : Nat} (I : Input T n) (hd : ∀ j, j + 1 < n → T.data (j + 1) ≤ T.data j) (tj : Nat → BitVec 64)
    (sj : BitVec 64) {ct : Container} {ht : HashTable} {s : Mem Nat} {r : Nat} (H : HeadOne T n ct ht s r) :
    Tot (createShortened tj sj T n ct) (fun T1 => T1.WF ∧ T1.length = 2 ∧ T1.bits ≤ 1 ∧ T1.cell 0 = 1 ∧ T1.cell 1 = 0) := by
  have hn3 := I.n3
  have hTs := I.size
  unfold createShortened
  rw [H.htab]
  simp only
  rw [H.num, H.uni]
  obtain ⟨bits, eb, b1, b2, b3, b4⟩ := Tot_iff.1 (positionOfMsb_spec (0 + 1) (by omega) (by omega))
  have hb1 : bits = 1 := by
    by_contra hc
    have : (2 : Nat) ^ 1 ≤ 2 ^ (bits - 1) := Nat.pow_le_pow_right (by norm_num) (by omega)
    omega
  have hwf : (PackedArray.new (0 + 2) bits tj).WF := PackedArray.new_wf _ _ _ b1 b2 (by omega)
  obtain ⟨T1, e1, a1, a2, a3, a4, _⟩ := Tot_iff.1 (PackedArray.setValue_tot hwf sj (i := 0 + 2 - 1) (by simp only [PackedArray.new]; omega) 0 (by simp))
  rw [eb, ok_bind, e1, ok_bind]
  have hloop : Tot (loopDown (n - 1) (⟨T1, TYPE_L, n, 0 + 2 - 1 - 1⟩ : ShSt) (shStep sj ht T))
      (fun s => s = (⟨T1, TYPE_L, n, 0 + 2 - 1 - 1⟩ : ShSt)) := by
    refine loopDown_spec (fun _ s => s = (⟨T1, TYPE_L, n, 0 + 2 - 1 - 1⟩ : ShSt)) (n - 1) _ _ rfl ?_
    rintro i s hi rfl
    have := hd i (by omega)
    unfold shStep
    rw [Mem.rd_ok _ (by omega), ok_bind, Mem.rd_ok _ (by omega), ok_bind, if_neg (by omega)]
    by_cases h2 : T.data (i + 1) < T.data i
    · rw [if_pos h2]
      unfold shMaybe
      rw [if_neg (by simp only; decide), ok_bind, Tot_ok]
    · rw [if_neg h2, Tot_ok]
  refine Tot.bind hloop ?_
  rintro _ rfl
  simp only
  refine (PackedArray.setValue_tot a1 sj (i := 0) (by rw [a3]; simp only [PackedArray.new]; omega) (BitVec.ofNat 64 (0 + 1)) (by
    rw [a2]; simp only [PackedArray.new]; rw [hb1]; decide)).mono ?_
  rintro T2 ⟨c1, c2, c3, c4, c5⟩
  refine ⟨c1, by rw [c3, a3]; rfl, by rw [c2, a2]; simp only [PackedArray.new]; omega, c4, ?_⟩
  rw [c5 1 (by omega)]
  exact a4

section
variable {T : Mem Nat} {n : Nat} {ct : Container} {ht : HashTable} {s : Mem Nat} {r : Nat}

/-- The situation inducing starts from. -/
theorem HeadOne.chain (H : HeadOne T n ct ht s r) (I : Input T n) (hd : ∀ j, j < n → T.data (j + 1) ≤ T.data j)
    (hlt : T.data n < T.data (n - 1)) (sj : BitVec 64) :
    Chain T.data n ⟨ht.buf, ct.bwpBase, ct.lastptr, ct.M, ct.C, sj⟩ ct.bwpWidth (3 + nb (n + 1)) := by
  have hn := I.nlt
  have hn3 := I.n3
  have hb := H.bsz
  have hw := H.wid
  have hl := H.last
  refine ⟨by omega, by omega, I.byte, hd, hlt, H.w1, H.w63, by omega, ?_, ?_, ?_⟩
  · simp only; rw [H.base, hl]; push_cast; omega
  · intro j hj
    simp only
    rw [hl, rdPtr_ok (k := r + 2 + nb (n + 1) + j) (by push_cast; omega) (by omega), H.txt j hj]
  · simp only
    exact ⟨_, by rw [hl]; exact rdPtr_ok (k := r + 1 + nb (n + 1)) (by push_cast; omega) (by omega)⟩

theorem HeadOne.prep_one (H : HeadOne T n ct ht s r) (hn : n < 2 ^ 57) {T1 : PackedArray} (hwf : T1.WF) (hlen : T1.length = 2) (hbits : T1.bits ≤ 1)
    (h0 : T1.cell 0 = 1) (h1 : T1.cell 1 = 0) (S : Type) [LawfulSaStore S] (w : World) (hw : 2 ≤ width S)
    (hmax : ct.saMax < 2 ^ (width S - 1)) :
    Tot (prep S w s T1 ht ct) (fun sa => 1 ≤ size sa ∧ get sa 0 = ((3 + nb (n + 1) + (n + 1) : Nat) : Int)) := by
  have hsm := H.smax
  have hbz := H.bsz
  have hpn : (((2 ^ (width S - 1) : Nat)) : Int) = (2 : Int) ^ (width S - 1) := by push_cast; rfl
  have hp2 : (2 : Nat) ≤ 2 ^ (width S - 1) := by
    calc (2 : Nat) = 2 ^ 1 := by norm_num
      _ ≤ 2 ^ (width S - 1) := Nat.pow_le_pow_right (by norm_num) (by omega)
  unfold prep
  rw [H.num, H.uni]
  have hs := saisCall_tot w.cj w.sj T1 (fresh (0 + 2) w.aj : S) 0 (0 + 2) 64 [0] (by omega)
    (by
      intro i hi
      have : i = 0 := by simpa using hi
      subst this
      exact ⟨T1.cell 1, PackedArray.getValue_eq hwf w.sj (by rw [hlen]; omega), by rw [h1]; rfl⟩)
    (by simp) (by simp only [List.length_singleton]; omega) (by omega) (by simp) (by rw [size_fresh]; simp)
    (by simp)
  simp only [List.length_singleton] at hs
  unfold saisCall at hs
  refine Tot.bind hs ?_
  rintro st ⟨a1, _, a3, a4⟩
  rw [size_fresh] at a1
  have hg0 : get st.sa 0 = 0 := by
    have h3 := a3 0 (by omega)
    have h4 : (get st.sa 0).toNat ∈ saList st 1 := List.mem_map.2 ⟨0, by simp, rfl⟩
    have h5 := a4.1.mem_iff.1 h4
    simp only [List.length_singleton, List.mem_range] at h5
    omega
  refine Tot.bind (incEntries_spec (0 + 1) st.sa (by omega) (fun i hi => by
      have : i = 0 := by omega
      subst this; omega)
    (fun i hi => by
      have : i = 0 := by omega
      subst this
      rw [hg0, ← hpn]; omega)) ?_
  rintro sa2 ⟨b1, b2⟩
  have hb2 := b2 0 (by omega)
  rw [hg0] at hb2
  unfold toPointers
  simp only [loopUp]
  have hl1 : getLength ht.buf r = .ok (n + 2) := getLength_eq H.len (by omega) (by omega) (by rw [H.nbl]; omega)
  have hfc : HashTable.getFirstCharacterPointer ht.buf r = .ok (r + 1 + nb (n + 1) + 1) := by
    unfold HashTable.getFirstCharacterPointer
    rw [Mem.rd_ok _ (by omega), ok_bind, H.len.1, H.nbl]
  have hval : (((r + 1 + nb (n + 1) + 1 : Nat) : Int) + ((n + 2 : Nat) : Int) - 1 - ct.bwpBase) = ((3 + nb (n + 1) + (n + 1) : Nat) : Int) := by
    rw [H.base]; push_cast; omega
  rw [if_pos (by omega), hb2, if_pos (by omega), show ((0 : Int) + 1 - 1).toNat = 0 by rfl,
    PackedArray.getValue_eq hwf w.sj (by rw [hlen]; omega), ok_bind, h0, show (1 : BitVec 64).toNat = 1 by rfl,
    Mem.rd_ok _ (by rw [H.ssz]; omega), ok_bind, H.s1, hl1, ok_bind, hfc, ok_bind, hval]
  unfold putC
  rw [if_pos ⟨by omega, by rw [← hpn]; omega⟩, ok_bind, Tot_ok]
  refine ⟨by rw [size_put]; omega, ?_⟩
  rw [get_put _ _ _ _ (by omega) (by rw [← hpn]; omega), if_pos rfl]

theorem HeadOne.finish_one (H : HeadOne T n ct ht s r) (I : Input T n) (hd : ∀ j, j < n → T.data (j + 1) ≤ T.data j)
    (hlt : T.data n < T.data (n - 1)) {T1 : PackedArray} (hwf : T1.WF) (hlen : T1.length = 2) (hbits : T1.bits ≤ 1)
    (h0 : T1.cell 0 = 1) (h1 : T1.cell 1 = 0) (w : World) :
    Tot (finish w s T1 ct) (fun o => ∃ b, o = some b ∧ b.bwt.size = n + 1 ∧ b.last = n ∧ b.bwt.data 0 = T.data n ∧
      ∀ i, 1 ≤ i → i < n → b.bwt.data (n - i) = T.data (i - 1)) := by
  have hsm := H.smax
  have hn3 := I.n3
  unfold finish
  rw [H.htab]
  simp only
  rw [H.num, if_neg (by omega)]
  obtain ⟨bits, eb, b1, b2, b3, b4⟩ := Tot_iff.1 (positionOfMsb_spec ct.saMax (by omega) (by omega))
  rw [eb, ok_bind]
  have hb63 : bits ≤ 63 := by
    by_contra hc
    have : (2 : Nat) ^ 63 ≤ 2 ^ (bits - 1) := Nat.pow_le_pow_right (by norm_num) (by omega)
    omega
  have key : ∀ (S : Type) [LawfulSaStore S], bits < width S → Tot (some <$> branch S w s T1 ht ct) (fun o => ∃ b, o = some b ∧
      b.bwt.size = n + 1 ∧ b.last = n ∧ b.bwt.data 0 = T.data n ∧ ∀ i, 1 ≤ i → i < n → b.bwt.data (n - i) = T.data (i - 1)) := by
    intro S _ hw
    have : (2 : Nat) ^ bits ≤ 2 ^ (width S - 1) := Nat.pow_le_pow_right (by norm_num) (by omega)
    refine map_some_tot ?_
    rw [branch_eq_prep, H.nn]
    refine Tot.bind (H.prep_one I.nlt hwf hlen hbits h0 h1 S w (by omega) (by omega)) ?_
    rintro sa ⟨c1, c2⟩
    exact induceBwt_chain w.qj w.bj w.sj ht.buf sa ct H.nn H.num (H.chain I hd hlt w.sj) H.counts H.sM2 H.sM3 H.sC2 c1 c2
  split
  · exact key S32 (by assumption)
  · split
    · exact key S40 (by assumption)
    · split
      · exact key S48 (by assumption)
      · split
        · exact key S56 (by assumption)
        · split
          · exact key S64 (by assumption)
          · omega

end

/-- All stages. -/
theorem bwtIs_one (w : World) {T : Mem Nat} {n : Nat} (I : Input T n) (hd : ∀ j, j < n → T.data (j + 1) ≤ T.data j)
    (hlt : T.data n < T.data (n - 1)) (hroom : enoughFor n ≤ w.junk.lim) (hS : SortsOK w.sorter) (hm : (n + 1) % 256 = 0)
    (hm2 : (n + 1) / 256 % 256 ≠ 0) (hjunk : ∀ i, w.junk i % 256 = 1) (freeT : Bool) :
    Tot (bwtIs w T n freeT) (fun x => (∃ b, x.1 = some b ∧ b.bwt.size = n + 1 ∧ b.last = n ∧ b.bwt.data 0 = T.data n ∧
      ∀ i, 1 ≤ i → i < n → b.bwt.data (n - i) = T.data (i - 1)) ∧ x.2 = release freeT T) := by
  obtain ⟨ct0, s, ct, ht, r, e1, e2, H⟩ := stages_one w I (fun j hj => hd j (by omega)) hroom hS hm hm2 hjunk
  obtain ⟨T1, e3, c1, c2, c3, c4, c5⟩ := Tot_iff.1 (short_one I (fun j hj => hd j (by omega)) w.tj w.sj H)
  unfold bwtIs
  rw [e1, ok_bind, e2, ok_bind, e3, ok_bind]
  refine Tot.bind (H.finish_one I hd hlt c1 c2 c3 c4 c5 w) ?_
  rintro o ⟨b, rfl, hb⟩
  rw [Tot_ok]
  exact ⟨⟨b, rfl, hb⟩, rfl⟩

end Flbwt
