import Verif.Copy
import Verif.PropsTime2

/-!
# Property C82: the cost of enlarging the table buffer

The buffer grows by 512 bytes plus one record at a time, so there are many calls of `realloc`. `bwtStringR` (`Copy.lean`) is
`bwt_string` with a counter of the bytes these calls copy when every call has to move the block. The number is at most
quadratic in the length of the string, and there are strings for which it is quadratic.
-/

namespace Flbwt

open TM
open HashTable (ok_bind calculateLenlen spaceRequired nb)

section
variable {α σ : Type _}

theorem Ends.charge {x : TM α} {k : Nat} {P : α → Nat → Prop} (h : Ends x (fun v a => P v (a + k))) :
    Ends (TM.charge k x) P := by
  intro r c hr
  cases x with
  | error e => cases hr
  | ok a => cases hr; exact h _ _ rfl

theorem Ends.erase {x : TM α} {P : α → Prop} (h : Tot (TM.erase x) P) : Ends x (fun v _ => P v) := by
  intro v a e
  rw [erase_ok e] at h
  exact h

theorem Ends.and {x : TM α} {P Q : α → Nat → Prop} (h : Ends x P) (k : Ends x Q) : Ends x (fun v a => P v a ∧ Q v a) :=
  fun v a e => ⟨h v a e, k v a e⟩

theorem Ends.loopDownR (Inv : Nat → σ → Nat → Prop) {f : Nat → σ → TM σ}
    (n : Nat) (h : ∀ i s c, i < n → Inv (i + 1) s c → Ends (f i s) (fun s' a => Inv i s' (c + a))) :
    ∀ (hi : Nat) (s : σ) (c : Nat), hi ≤ n → Inv hi s c → Ends (loopDownR hi s f) (fun s' a => Inv 0 s' (c + a)) := by
  intro hi
  induction hi with
  | zero => intro s c _ hs; exact Ends.pure hs
  | succ hi ih =>
    intro s c hn hs
    rw [Flbwt.loopDownR]
    refine Ends.bind (h hi s c hn hs) fun v a hv => (ih v (c + a) (by omega) hv).mono fun r b hr => ?_
    rwa [Nat.add_assoc] at hr
end

namespace HashTable

theorem linkBlock_bufsize {ht ht' : HashTable} {h q q2 : Nat} {r : Option Nat} (e : linkBlock ht h q r q2 = .ok ht') :
    ht'.bufsize = ht.bufsize := by
  unfold linkBlock at e
  split at e
  · cases h1 : ht.head.wr h q2 with
    | error x => rw [h1] at e; cases e
    | ok x => rw [h1] at e; cases e; rfl
  · cases r with
    | none => cases e
    | some pp =>
      simp only at e
      cases h1 : setPointer ht.buf pp q2 with
      | error x => rw [h1] at e; cases e
      | ok x => rw [h1] at e; cases e; rfl

theorem makeRoomR_cost (junk : Fresh) (ht : HashTable) (h q : Nat) (r : Option Nat) (space : Nat) :
    Ends (makeRoomR junk ht h q r space) (fun x a => (a = 0 ∧ x.1.bufsize = ht.bufsize) ∨
      (a = ht.buf.size ∧ x.1.bufsize = ht.bufsize + (ht.hbsize + space))) := by
  unfold makeRoomR
  refine Ends.bind (P := fun _ a => a = 0) (Ends.lift fun _ _ => rfl) fun rest _ h1 => ?_
  refine Ends.bind (P := fun _ a => a = 0) (Ends.lift fun _ _ => rfl) fun lim _ h2 => ?_
  subst h1 h2
  split
  · refine Ends.bind (P := fun _ a => a = ht.buf.size) (Ends.charge (Ends.lift fun _ _ => Nat.zero_add _)) fun buf _ h3 => ?_
    refine Ends.bind (P := fun _ a => a = 0) (Ends.lift fun _ _ => rfl) fun rest' _ h4 => ?_
    subst h3 h4
    refine Ends.bind (P := fun x a => a = 0 ∧ x.bufsize = ht.bufsize + (ht.hbsize + space))
      (Ends.lift fun v hv => ⟨rfl, linkBlock_bufsize hv⟩) fun x _ h5 => Ends.pure ?_
    right
    exact ⟨by omega, h5.2⟩
  · refine Ends.lift fun v hv => ?_
    left
    cases r with
    | none => cases hv
    | some r => cases hv; exact ⟨rfl, rfl⟩

/-- One call of `insert_string`: nothing is copied and the buffer keeps its size, or the whole buffer is copied and it grows
by a block. -/
theorem insertStringR_cost (junk : Fresh) (ht : HashTable) (T : Mem Nat) (m p : Nat) :
    Ends (insertStringR junk ht T m p) (fun x a => (a = 0 ∧ x.1.bufsize = ht.bufsize) ∨
      ∃ ll, calculateLenlen m = .ok ll ∧ a = ht.buf.size ∧
        x.1.bufsize = ht.bufsize + (ht.hbsize + spaceRequired ll m ht.nameBytes)) := by
  unfold insertStringR
  refine Ends.bind (P := fun _ a => a = 0) (Ends.lift fun _ _ => rfl) fun h _ h1 => ?_
  refine Ends.bind (P := fun _ a => a = 0) (Ends.lift fun _ _ => rfl) fun q _ h2 => ?_
  refine Ends.bind (P := fun _ a => a = 0) (Ends.lift fun _ _ => rfl) fun e _ h3 => ?_
  subst h1 h2 h3
  cases e with
  | dup c => exact Ends.pure (Or.inl ⟨rfl, rfl⟩)
  | free q r c =>
    unfold insertTailR
    refine Ends.bind (P := fun v a => a = 0 ∧ calculateLenlen m = .ok v) (Ends.lift fun v hv => ⟨rfl, hv⟩) fun ll _ h1 => ?_
    refine Ends.bind (makeRoomR_cost junk { ht with collisions := c } h q r (spaceRequired ll m ht.nameBytes)) fun x a h2 => ?_
    refine Ends.bind (P := fun _ a => a = 0) (Ends.lift fun _ _ => rfl) fun buf _ h3 => ?_
    refine Ends.bind (P := fun _ a => a = 0) (Ends.lift fun _ _ => rfl) fun rest _ h4 => ?_
    refine Ends.bind (P := fun _ a => a = 0) (Ends.lift fun _ _ => rfl) fun rest' _ h5 => Ends.pure ?_
    subst h3 h4 h5
    obtain ⟨h1, h6⟩ := h1
    subst h1
    simp only at h2
    rcases h2 with ⟨rfl, h2⟩ | ⟨rfl, h2⟩
    · exact Or.inl ⟨rfl, h2⟩
    · exact Or.inr ⟨ll, h6, by omega, h2⟩

end HashTable

section
variable {T : Mem Nat} {n : Nat}

theorem exMaybeR_cost (junk : Fresh) (i : Nat) (s : ExSt) :
    Ends (exMaybeR junk T i s) (fun s' a => (a = 0 ∧ s'.ht.bufsize = s.ht.bufsize) ∨
      ∃ ll, s.prev = TYPE_S ∧ calculateLenlen (addU64 (subU64 s.q (i + 1)) 1) = .ok ll ∧ a = s.ht.buf.size ∧
        s'.ht.bufsize = s.ht.bufsize + (s.ht.hbsize + spaceRequired ll (addU64 (subU64 s.q (i + 1)) 1) s.ht.nameBytes)) := by
  unfold exMaybeR
  split
  · rename_i hp
    unfold exFoundR
    refine Ends.bind (P := fun _ a => a = 0) (Ends.lift fun _ _ => rfl) fun c _ h1 => ?_
    refine Ends.bind (P := fun _ a => a = 0) (Ends.lift fun _ _ => rfl) fun C _ h2 => ?_
    refine Ends.bind (HashTable.insertStringR_cost junk s.ht T _ (i + 1)) fun r a h3 => Ends.pure ?_
    subst h1 h2
    rcases h3 with ⟨rfl, h3⟩ | ⟨ll, h4, rfl, h3⟩
    · exact Or.inl ⟨rfl, h3⟩
    · exact Or.inr ⟨ll, hp, h4, by omega, h3⟩
  · exact Ends.pure (Or.inl ⟨rfl, rfl⟩)

theorem exStepR_cost (junk : Fresh) (i : Nat) (s : ExSt) (hi : i + 1 < T.size) :
    Ends (exStepR junk T i s) (fun s' a => (a = 0 ∧ s'.ht.bufsize = s.ht.bufsize) ∨
      ∃ ll, T.data (i + 1) < T.data i ∧ s.prev = TYPE_S ∧ calculateLenlen (addU64 (subU64 s.q (i + 1)) 1) = .ok ll ∧
        a = s.ht.buf.size ∧
        s'.ht.bufsize = s.ht.bufsize + (s.ht.hbsize + spaceRequired ll (addU64 (subU64 s.q (i + 1)) 1) s.ht.nameBytes)) := by
  unfold exStepR
  refine Ends.bind (P := fun v a => v = T.data i ∧ a = 0) (Ends.lift fun v hv => ⟨by
    rw [Mem.rd_ok _ (by omega)] at hv; cases hv; rfl, rfl⟩) fun a _ h1 => ?_
  refine Ends.bind (P := fun v a => v = T.data (i + 1) ∧ a = 0) (Ends.lift fun v hv => ⟨by
    rw [Mem.rd_ok _ (by omega)] at hv; cases hv; rfl, rfl⟩) fun b _ h2 => ?_
  refine Ends.bind (P := fun _ a => a = 0) (Ends.lift fun _ _ => rfl) fun M _ h3 => ?_
  obtain ⟨rfl, rfl⟩ := h1
  obtain ⟨rfl, rfl⟩ := h2
  subst h3
  split
  · exact Ends.pure (Or.inl ⟨rfl, rfl⟩)
  split
  · rename_i hd
    refine Ends.bind (exMaybeR_cost junk i { s with M := M }) fun s' a h4 => ?_
    refine Ends.bind (P := fun _ a => a = 0) (Ends.lift fun _ _ => rfl) fun NL _ h5 => Ends.pure ?_
    subst h5
    rcases h4 with ⟨rfl, h4⟩ | ⟨ll, x1, x2, x3, x4⟩
    · exact Or.inl ⟨rfl, h4⟩
    · exact Or.inr ⟨ll, hd, x1, x2, by simp only at x3; omega, x4⟩
  split
  · refine Ends.bind (P := fun _ a => a = 0) (Ends.lift fun _ _ => rfl) fun NL _ h5 => Ends.pure ?_
    subst h5
    exact Or.inl ⟨rfl, rfl⟩
  · exact Ends.pure (Or.inl ⟨rfl, rfl⟩)

/-- The relation between the bytes copied so far and the size of the buffer: every call copies the buffer and enlarges it by
at least 512 bytes and at most `d` bytes. -/
def Copied (d B c : Nat) : Prop := 1024 * c ≤ B * B ∧ B * B ≤ 2 * d * c + d * B

theorem Copied.step {d B c e : Nat} (h : Copied d B c) (h1 : 512 ≤ e) (h2 : e ≤ d) : Copied d (B + e) (c + B) := by
  obtain ⟨a, b⟩ := h
  have e1 : (B + e) * (B + e) = B * B + 2 * (B * e) + e * e := by ring
  have e2 : 512 * B ≤ B * e := by rw [Nat.mul_comm]; exact Nat.mul_le_mul_left _ h1
  have e3 : B * e ≤ B * d := Nat.mul_le_mul_left _ h2
  have e4 : e * e ≤ d * e := Nat.mul_le_mul_right _ h2
  constructor
  · rw [e1]; omega
  · have : 2 * d * (c + B) + d * (B + e) = 2 * d * c + d * B + 2 * (B * d) + d * e := by ring
    rw [e1, this]; omega

theorem exStepR_copied (I : Input T n) {junk : Fresh} (hL : LmsLenOK junk T.data n) {m : Nat}
    (hm : ∀ p, isLMS T.data n p → nx T.data n p - p + 1 ≤ m) {i : Nat} (hi : i + 1 < n) {s : ExSt} {c : Nat}
    (g : ExInv T n (i + 1) s) (h : Copied (530 + m) s.ht.bufsize c) :
    Ends (exStepR junk T i s) (fun s' a => ExInv T n i s' ∧ Copied (530 + m) s'.ht.bufsize (c + a)) := by
  have hsz := I.size
  have hn := I.nlt
  have he : Tot (TM.erase (exStepR junk T i s)) (ExInv T n i) := by rw [erase_exStepR]; exact exStep_spec I hL hi g
  refine ((Ends.erase he).and (exStepR_cost junk i s (by omega))).mono ?_
  rintro s' a ⟨g', ⟨rfl, h1⟩ | ⟨ll, hd, hp, h2, rfl, h1⟩⟩
  · exact ⟨g', by rw [h1]; exact h⟩
  refine ⟨g', ?_⟩
  obtain ⟨⟨own, ents, E, t, _⟩, _, hN8, _⟩ := g.ht
  have hS : isS T.data n (i + 1) = true := by
    have := g.prev
    cases hS : isS T.data n (i + 1) with
    | true => rfl
    | false => rw [hS, hp] at this; simp [TYPE_S, TYPE_L] at this
  have hSi : isS T.data n i = false := (L_iff (by omega)).2 (Or.inr ⟨hi, Or.inl hd⟩)
  have hl : isLMS T.data n (i + 1) := ⟨by omega, hi, hS, by simpa using hSi⟩
  have hnx := g.lms hl
  obtain ⟨nxa, nxb, _, _⟩ := nx_spec hl
  rw [g.qp, ← hnx, subU64_eq (by omega), addU64_eq (by omega)] at h1 h2
  have hm' := hm _ hl
  rw [HashTable.calculateLenlen_eq (by omega) (by omega)] at h2
  cases h2
  have hnb : nb (nx T.data n (i + 1) - (i + 1) + 1) ≤ 8 := HashTable.nb_le8 (by omega) (by omega)
  have hpos := HashTable.nb_pos (nx T.data n (i + 1) - (i + 1) + 1)
  rw [h1, t.bufsz, t.hb]
  refine h.step (by omega) ?_
  unfold spaceRequired
  omega

theorem extractLMSR_copied (I : Input T n) {junk : Fresh} (hL : LmsLenOK junk T.data n) {m : Nat}
    (hm : ∀ p, isLMS T.data n p → nx T.data n p - p + 1 ≤ m) :
    Ends (extractLMSR junk T n) (fun ct a => ∃ ht, ct.hashtable = some ht ∧ Copied (530 + m) ht.bufsize a) := by
  have hn3 := I.n3
  unfold extractLMSR
  rw [if_neg (by omega)]
  obtain ⟨ht0, M1, M2, NL1, C1, e0, e1, e2, e3, e4, e5, h0⟩ := extract_start I
  have hb : ht0.bufsize = 0 := by
    unfold HashTable.new at e0
    dsimp only at e0
    cases h1 : positionOfMsb (n / 2 + 1) with
    | error x => rw [h1] at e0; cases e0
    | ok x => rw [h1] at e0; cases e0; rfl
  rw [e0, e1, e2, e5]
  refine Ends.bind (P := fun v a => a = 0 ∧ v = ht0) (Ends.lift fun v hv => ⟨rfl, by cases hv; rfl⟩) fun x _ h1 => ?_
  obtain ⟨rfl, rfl⟩ := h1
  refine Ends.bind (P := fun v a => a = 0 ∧ v = M1) (Ends.lift fun v hv => ⟨rfl, by cases hv; rfl⟩) fun y _ h1 => ?_
  obtain ⟨rfl, rfl⟩ := h1
  refine Ends.bind (P := fun v a => a = 0 ∧ v = T.data (n - 1)) (Ends.lift fun v hv => ⟨rfl, by cases hv; rfl⟩) fun z _ h1 => ?_
  obtain ⟨rfl, rfl⟩ := h1
  rw [e3, e4]
  refine Ends.bind (P := fun v a => a = 0 ∧ v = M2) (Ends.lift fun v hv => ⟨rfl, by cases hv; rfl⟩) fun y _ h1 => ?_
  obtain ⟨rfl, rfl⟩ := h1
  refine Ends.bind (P := fun v a => a = 0 ∧ v = NL1) (Ends.lift fun v hv => ⟨rfl, by cases hv; rfl⟩) fun y _ h1 => ?_
  obtain ⟨rfl, rfl⟩ := h1
  refine Ends.bind (P := fun v a => a = 0 ∧ v = C1) (Ends.lift fun v hv => ⟨rfl, by cases hv; rfl⟩) fun y _ h1 => ?_
  obtain ⟨rfl, rfl⟩ := h1
  refine Ends.bind (Ends.loopDownR (fun i s c => ExInv T n i s ∧ Copied (530 + m) s.ht.bufsize c) (n - 1) ?_ (n - 1) _ 0
    (Nat.le_refl _) ⟨h0, ?_⟩) fun s a hs => Ends.pure ?_
  · intro i s c hi h
    exact exStepR_copied I hL hm (by omega) h.1 h.2
  · simp only [hb]
    exact ⟨by omega, by omega⟩
  · obtain ⟨_, y⟩ := hs
    refine ⟨s.ht, rfl, ?_⟩
    have : 0 + (0 + (0 + (0 + (0 + (0 + (a + 0)))))) = 0 + a := by omega
    rw [this]; exact y

theorem sortLMSR_cost (sorter : Sorter) (pj : Nat → Nat) (junk : Fresh) {ct : Container} {ht : HashTable}
    (h : ct.hashtable = some ht) : Ends (sortLMSR sorter pj junk T ct) (fun _ a => a = ht.buf.size) := by
  unfold sortLMSR
  refine Ends.bind (P := fun v a => a = 0 ∧ v = ht) (Ends.lift fun v hv => ⟨rfl, by
    unfold tableOf at hv; rw [h] at hv; cases hv; rfl⟩) fun x _ h1 => ?_
  obtain ⟨rfl, rfl⟩ := h1
  refine Ends.bind (P := fun _ a => a = x.buf.size) ?_ fun r a hr => Ends.lift fun _ _ => by omega
  unfold sortNamesR
  refine Ends.bind (P := fun _ a => a = 0) (Ends.lift fun _ _ => rfl) fun ll _ h1 => ?_
  refine Ends.bind (P := fun _ a => a = x.buf.size) (Ends.charge (Ends.lift fun _ _ => Nat.zero_add _)) fun buf _ h2 => ?_
  refine Ends.bind (P := fun _ a => a = 0) (Ends.lift fun _ _ => rfl) fun _ _ h3 => ?_
  refine Ends.bind (P := fun _ a => a = 0) (Ends.lift fun _ _ => rfl) fun _ _ h4 => ?_
  refine Ends.bind (P := fun _ a => a = 0) (Ends.lift fun _ _ => rfl) fun _ _ h5 => ?_
  refine Ends.bind (P := fun _ a => a = 0) (Ends.lift fun _ _ => rfl) fun _ _ h6 => ?_
  refine Ends.bind (P := fun _ a => a = 0) (Ends.lift fun _ _ => rfl) fun _ _ h7 => Ends.pure ?_
  omega

/-- The bytes copied by a whole call, in terms of the final size of the buffer. -/
theorem bwtStringR_copied (w : World) (I : Input T n) (hL : LmsLenOK w.junk T.data n) (freeT : Bool) {m : Nat}
    (hm : ∀ p, isLMS T.data n p → nx T.data n p - p + 1 ≤ m) :
    Ends (bwtStringR w (some T) n freeT) (fun _ c => ∃ ct ht c0, Extracted T.data n ct ht ∧ Copied (530 + m) ht.bufsize c0 ∧
      c = c0 + ht.bufsize) := by
  have hn3 := I.n3
  simp only [bwtStringR]
  rw [if_neg (by omega)]
  unfold bwtIsR
  have he : Tot (TM.erase (extractLMSR w.junk T n)) (fun ct => ∃ ht, Extracted T.data n ct ht) := by
    rw [erase_extractLMSR]; exact extractLMS_spec I hL
  refine Ends.bind ((Ends.erase he).and (extractLMSR_copied I hL hm)) fun ct c0 h => ?_
  obtain ⟨⟨ht, X⟩, ht', e, hc⟩ := h
  rw [X.htab] at e
  cases e
  refine Ends.bind (sortLMSR_cost (T := T) w.sorter w.pj w.junk X.htab) fun r a ha => ?_
  refine Ends.bind (P := fun _ a => a = 0) (Ends.lift fun _ _ => rfl) fun _ _ h3 => ?_
  refine Ends.bind (P := fun _ a => a = 0) (Ends.lift fun _ _ => rfl) fun _ _ h4 => Ends.pure ?_
  refine ⟨ct, ht, c0, X, hc, ?_⟩
  obtain ⟨own, ents, E, t, _⟩ := X.hok.tab
  have := t.bufsz
  omega

end

section
variable {T : Mem Nat} {s : List Nat}

theorem bwtStringR_good (w : World) (g : GoodCall w.junk w.sorter T s) (freeT : Bool) :
    ∃ r c, bwtStringR w (some T) s.length freeT = .ok ((some r, release freeT T), c) ∧ r.bwt.size = s.length + 1 ∧
      IsBWT s r.bwt.data r.last := by
  obtain ⟨r, e, h1, h2⟩ := bwtString_good w g freeT
  rw [← erase_bwtStringR] at e
  cases hx : bwtStringR w (some T) s.length freeT with
  | error x => rw [hx] at e; cases e
  | ok v =>
    obtain ⟨a, c⟩ := v
    rw [hx] at e
    cases e
    exact ⟨r, c, rfl, h1, h2⟩

/-- **C82** Even if every call of `realloc` moves the block, at most `(27·n + 34702336)² / 1024` bytes are copied in a call of
`bwt_string` on `n` bytes. -/
theorem C82_copied_quadratic (w : World) (g : GoodCall w.junk w.sorter T s) (freeT : Bool) :
    ∃ r c, bwtStringR w (some T) s.length freeT = .ok ((some r, release freeT T), c) ∧ r.bwt.size = s.length + 1 ∧
      IsBWT s r.bwt.data r.last ∧ 1024 * c ≤ (27 * s.length + 34702336) ^ 2 := by
  obtain ⟨r, c, e, h1, h2⟩ := bwtStringR_good w g freeT
  refine ⟨r, c, e, h1, h2, ?_⟩
  obtain ⟨ct, ht, c0, X, ⟨hc, _⟩, rfl⟩ := bwtStringR_copied w g.inp g.len.lms freeT (m := s.length + 1) (fun p hp => by
    obtain ⟨_, h, _⟩ := nx_spec hp; omega) _ _ e
  have hB := X.small
  have h3 : ht.bufsize + 512 ≤ 27 * s.length + 34702336 := by omega
  calc 1024 * (c0 + ht.bufsize) ≤ (ht.bufsize + 512) ^ 2 := by
        have : (ht.bufsize + 512) ^ 2 = ht.bufsize * ht.bufsize + 1024 * ht.bufsize + 262144 := by ring
        omega
    _ ≤ _ := Nat.pow_le_pow_left h3 2

/-- **C82** For every `k ≤ 2^49` there is a string of `67·(k + 2)` bytes for which calls of `realloc` that move the block copy at
least `4·k²` bytes, whatever the memory contains and however `std::sort` works. -/
theorem C82_copied_at_least (k : Nat) (hk : k ≤ 2 ^ 49) : ∃ s : List Nat, s.length = 67 * (k + 2) ∧ (∀ c ∈ s, c < 256) ∧
    NoLength256 s ∧
    ∀ (w : World) (T : Mem Nat) (freeT : Bool), GoodCall w.junk w.sorter T s →
      ∃ r c, bwtStringR w (some T) s.length freeT = .ok ((some r, release freeT T), c) ∧ 4 * k ^ 2 ≤ c := by
  refine ⟨badText (0 :: (List.range k ++ [0])), ?_, badText_lt _, bad_safe _ (by simp), ?_⟩
  · rw [badText_length]; simp
  intro w T freeT g
  obtain ⟨r, c, e, h1, h2⟩ := bwtStringR_good w g freeT
  refine ⟨r, c, e, ?_⟩
  have hm := g.mem
  have hlen := badText_length (0 :: (List.range k ++ [0]))
  have h68 : ∀ p, isLMS T.data (badText (0 :: (List.range k ++ [0]))).length p →
      nx T.data (badText (0 :: (List.range k ++ [0]))).length p - p + 1 = 68 := by
    intro p hp
    rw [hlen] at hp ⊢
    obtain ⟨b, b1, b2, rfl⟩ := (bad_lms hm _).1 hp
    rw [bad_nx hm b1 b2]
    omega
  obtain ⟨ct, ht, c0, X, ⟨_, hc⟩, rfl⟩ := bwtStringR_copied w g.inp g.len.lms freeT (m := 68) (fun p hp => by
    rw [h68 p hp]) _ _ e
  obtain ⟨own, ents, E', t, hset, hu, _⟩ := X.hok.tab
  have hused := X.hok.used 68 (fun p hp => by rw [h68 p hp])
  have hsub : ((List.range k).map (fun x => badBlock x ++ [1])).length ≤
      ((HashTable.allEnts ents ht.htsize).map Prod.snd).length := by
    apply List.Subperm.length_le
    apply List.Nodup.subperm
    · refine (List.nodup_map_iff_inj_on List.nodup_range).2 ?_
      intro x hx y hy hxy
      rw [List.mem_range] at hx hy
      have h49 : (2 : Nat) ^ 49 < 2 ^ 66 := by norm_num
      exact badBlock_inj (by omega) (by omega) (List.append_cancel_right hxy)
    · intro v hv
      obtain ⟨x, hx, rfl⟩ := List.mem_map.1 hv
      have hxk := List.mem_range.1 hx
      have hin : x + 1 + 1 < (0 :: (List.range k ++ [0])).length := by simp; omega
      have hget : (0 :: (List.range k ++ [0]))[x + 1] = x := by
        rw [List.getElem_cons_succ, List.getElem_append_left (by simpa using hxk), List.getElem_range]
      have := (hset (badBlock x ++ [1])).2 ⟨67 * (x + 1), trivial, by
        rw [hlen]
        exact (bad_lms hm _).2 ⟨x + 1, by omega, by omega, rfl⟩, by
        rw [hlen, bad_wstr hm (by omega) hin, hget]⟩
      obtain ⟨y, hy, hyx⟩ := List.mem_map.1 this
      exact List.mem_map.2 ⟨y, HashTable.mem_allEnts.2 ⟨_, HashTable.hashL_lt t.hts _, hy⟩, hyx⟩
  rw [List.length_map, List.length_range, List.length_map, ← hu] at hsub
  have hB : 72 * k ≤ ht.bufsize := by omega
  have h3 : (72 * k) * (72 * k) ≤ ht.bufsize * ht.bufsize := Nat.mul_le_mul hB hB
  have h4 : (72 * k) * (72 * k) = 5184 * k ^ 2 := by ring
  omega

/-- **C82** No constant up to `2^40` bounds the number of copied bytes per byte of the input. -/
theorem C82_copied_not_linear (c : Nat) (hc : c ≤ 2 ^ 40) : ∃ s : List Nat,
    (∀ (junk : Fresh) (sorter : Sorter) (T : Mem Nat), HoldsString T s → SortsOK sorter → enoughFor s.length ≤ junk.lim →
      GoodCall junk sorter T s) ∧
    ∀ (w : World) (T : Mem Nat) (freeT : Bool), GoodCall w.junk w.sorter T s →
      ∃ r x, bwtStringR w (some T) s.length freeT = .ok ((some r, release freeT T), x) ∧ c * s.length < x := by
  have e1 : (2 : Nat) ^ 49 = 512 * 2 ^ 40 := by norm_num
  have e2 : (2 : Nat) ^ 57 = 131072 * 2 ^ 40 := by norm_num
  have e3 : (2 : Nat) ^ 40 = 1099511627776 := by norm_num
  obtain ⟨s, hs1, hs2, hs3, hs4⟩ := C82_copied_at_least (17 * c + 2) (by omega)
  refine ⟨s, fun junk sorter T h1 h2 h3 => ⟨by omega, by omega, hs2, h1, h2, Or.inr hs3, h3⟩, fun w T freeT g => ?_⟩
  obtain ⟨r, x, e, h⟩ := hs4 w T freeT g
  refine ⟨r, x, e, Nat.lt_of_lt_of_le ?_ h⟩
  rw [hs1]
  ring_nf
  nlinarith

/-- The hypotheses can be met: the string for `c = 1000`, zero terminated, sorted by insertion sort. -/
example : ∃ (s : List Nat) (w : World) (T : Mem Nat) (r : BwtResult) (x : Nat), GoodCall w.junk w.sorter T s ∧
    bwtStringR w (some T) s.length false = .ok ((some r, release false T), x) ∧ 1000 * s.length < x := by
  obtain ⟨s, h1, h2⟩ := C82_copied_not_linear 1000 (by norm_num)
  have g := h1 ⟨fun _ => 7, enoughFor s.length⟩ insSort (cString s) (cString_holds s) insSort_ok (Nat.le_refl _)
  obtain ⟨r, x, a, b⟩ := h2 ⟨⟨fun _ => 7, enoughFor s.length⟩, fun _ => 1, fun _ => 2#64, fun _ => 3#64,
    fun _ _ => 4#64, fun _ _ _ _ => 5#64, fun _ => 6, 7#64, insSort⟩ _ false g
  exact ⟨s, _, _, r, x, g, a, b⟩

end
end Flbwt
