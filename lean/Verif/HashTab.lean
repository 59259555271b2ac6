import Verif.HashField

/-!
# Invariant of the hash table and the specification of its operations
-/

namespace Flbwt
namespace HashTable

/-- the `m` bytes at `T[p]` -/
def substr (T : Mem Nat) (p m : Nat) : List Nat := (List.range m).map fun i => T.data (p + i)

theorem substr_length (T : Mem Nat) (p m : Nat) : (substr T p m).length = m := by simp [substr]

theorem substr_getD (T : Mem Nat) (p m j : Nat) (h : j < m) : (substr T p m).getD j 0 = T.data (p + j) := by
  simp [substr, List.getD, h]

theorem substr_succ (T : Mem Nat) (p m : Nat) : substr T p (m + 1) = substr T p m ++ [T.data (p + m)] := by
  simp [substr, List.range_succ]

theorem substr_eq_iff (T : Mem Nat) (p m : Nat) (s : List Nat) (hs : s.length = m) :
    substr T p m = s ↔ ∀ j, j < m → T.data (p + j) = s.getD j 0 := by
  constructor
  · rintro rfl j hj; rw [substr_getD _ _ _ _ hj]
  · intro h
    apply List.ext_getElem (by rw [substr_length, hs])
    intro j h1 h2
    rw [substr_length] at h1
    have := h j h1
    simp only [substr, List.getElem_map, List.getElem_range]
    rw [this, List.getD_eq_getElem?_getD, List.getElem?_eq_getElem h2]; rfl

/-- the hash of a byte string -/
def hashL (htsize : Nat) (s : List Nat) : Nat :=
  (s.foldl (fun x c => (x * 101 % 18446744073709551616 + c) % 18446744073709551616) 0) % htsize

theorem hashFunction_eq (htsize : Nat) (T : Mem Nat) (m p : Nat) (h0 : 0 < htsize) (hs : p + m ≤ T.size) :
    hashFunction htsize T m p = .ok (hashL htsize (substr T p m)) := by
  apply Tot.eq_ok
  unfold hashFunction
  rw [Tot_bind]
  refine (loopUp_spec (fun i x => x = (substr T p i).foldl
    (fun x c => (x * 101 % 18446744073709551616 + c) % 18446744073709551616) 0) 0 m 0 _ (by simp [substr]) ?_).mono ?_
  · intro i x _ h2 hx
    simp only [Tot_bind, Mem.Tot_rd, Tot_ok]
    refine ⟨by omega, ?_⟩
    rw [substr_succ, List.foldl_append, ← hx]
    rfl
  · intro x hx
    rw [if_neg (by omega), Tot_ok, hx, Nat.zero_add]
    rfl

/-- length of a record without its name bytes -/
def bodyLen (s : List Nat) : Nat := 2 + nb s.length + s.length

/-- A record for `s` at `q`. -/
def RecAt (buf : Mem Nat) (q : Nat) (s : List Nat) : Prop :=
  LenAt buf q s.length ∧ buf.data (q + 1 + nb s.length) = (s.getD 0 0 + 1) % 256 ∧
  ∀ j, j < s.length → buf.data (q + 2 + nb s.length + j) = s.getD j 0

theorem RecAt.congr {buf buf' : Mem Nat} {q : Nat} {s : List Nat} (h : RecAt buf q s)
    (he : ∀ i, q ≤ i → i < q + bodyLen s → buf'.data i = buf.data i) : RecAt buf' q s := by
  unfold bodyLen at he
  exact ⟨h.1.congr (fun i h1 h2 => he i (by omega) (by omega)),
    by rw [he _ (by omega) (by omega)]; exact h.2.1,
    fun j hj => by rw [he _ (by omega) (by omega)]; exact h.2.2 j hj⟩

/-- The records reachable from offset `q`, in order, and the offset of the end mark. Bytes of records,
pointers and the end mark satisfy `P`, name bytes of the record at `q` satisfy `PN q`. A pointer always leads to a
record. -/
inductive Chain (NB : Nat) (buf : Mem Nat) (P : Nat → Prop) (PN : Nat → Nat → Prop) :
    Nat → List (Nat × List Nat) → Nat → Prop
  | nil (q : Nat) : q ≠ 0 → (∀ i, q ≤ i → i < q + 12 → P i ∧ buf.data i = 0) → Chain NB buf P PN q [] q
  | cons (q : Nat) (s : List Nat) (L : List (Nat × List Nat)) (e : Nat) : q ≠ 0 → 3 ≤ s.length → s.length < 2 ^ 64 →
      (∀ i, q ≤ i → i < q + bodyLen s → P i) → (∀ j, j < NB → PN q (q + bodyLen s + j)) → RecAt buf q s →
      Chain NB buf P PN (q + bodyLen s + NB) L e → Chain NB buf P PN q ((q, s) :: L) e
  | jump (q x : Nat) (L : List (Nat × List Nat)) (e : Nat) : q ≠ 0 → q + 10 ≤ x → x < 2 ^ 64 →
      (∀ i, q ≤ i → i < q + 10 → P i) → PtrAt buf q x →
      Chain NB buf P PN x L e → L.head?.map Prod.fst = some x → Chain NB buf P PN q L e

variable {NB : Nat} {buf buf' : Mem Nat} {P P' : Nat → Prop} {PN PN' : Nat → Nat → Prop}

theorem Chain.le {q e : Nat} {L : List (Nat × List Nat)} (h : Chain NB buf P PN q L e) : q ≤ e ∧ q ≠ 0 := by
  induction h with
  | nil => exact ⟨Nat.le_refl _, by assumption⟩
  | cons q s L e h0 _ _ _ _ _ _ ih => unfold bodyLen at ih; exact ⟨by omega, h0⟩
  | jump q x L e h0 _ _ _ _ _ _ ih => exact ⟨by omega, h0⟩

theorem Chain.tail {q e : Nat} {L : List (Nat × List Nat)} (h : Chain NB buf P PN q L e) :
    Chain NB buf P PN e [] e := by
  induction h with
  | nil q h0 h1 => exact .nil q h0 h1
  | cons q s L e _ _ _ _ _ _ _ ih => exact ih
  | jump q x L e _ _ _ _ _ _ _ ih => exact ih

theorem Chain.zeros {q e : Nat} (h : Chain NB buf P PN q [] e) (he : q = e) : 
    ∀ i, e ≤ i → i < e + 12 → P i ∧ buf.data i = 0 := by
  cases h with
  | nil _ h0 h1 => exact h1
  | jump _ x _ _ h0 h1 _ _ _ h5 => have := h5.le; omega

theorem Chain.app {q e e2 : Nat} {L L2 : List (Nat × List Nat)} (h : Chain NB buf P PN q L e)
    (h1 : ∀ i, P i → i < e → P' i ∧ buf'.data i = buf.data i) (h2 : ∀ q i, PN q i → PN' q i)
    (h3 : Chain NB buf' P' PN' e L2 e2) : Chain NB buf' P' PN' q (L ++ L2) e2 := by
  induction h with
  | nil q _ _ => exact h3
  | cons q s L e g0 g1 g2 g3 g4 g5 g6 ih =>
    have hle := g6.le
    refine .cons q s _ _ g0 g1 g2 ?_ ?_ ?_ (ih h1 h3)
    · intro i i1 i2; exact (h1 i (g3 i i1 i2) (by omega)).1
    · intro j hj; exact h2 _ _ (g4 j hj)
    · exact g5.congr (fun i i1 i2 => (h1 i (g3 i i1 i2) (by omega)).2)
  | jump q x L e g0 g1 g2 g3 g4 g5 gh ih =>
    have hle := g5.le
    refine .jump q x _ _ g0 g1 g2 ?_ ?_ (ih h1 h3) (by cases L with
      | nil => cases gh
      | cons a L => exact gh)
    · intro i i1 i2; exact (h1 i (g3 i i1 i2) (by omega)).1
    · exact g4.congr (fun i i1 i2 => (h1 i (g3 i i1 i2) (by omega)).2)

theorem Chain.frame {q e : Nat} {L : List (Nat × List Nat)} (h : Chain NB buf P PN q L e)
    (h1 : ∀ i, P i → P' i ∧ buf'.data i = buf.data i) (h2 : ∀ q i, PN q i → PN' q i) :
    Chain NB buf' P' PN' q L e := by
  have ht := h.tail
  have hz := ht.zeros rfl
  have := h.app (fun i hi _ => h1 i hi) h2 (.nil e ht.le.2 (fun i i1 i2 => ⟨(h1 i (hz i i1 i2).1).1, by
    rw [(h1 i (hz i i1 i2).1).2]; exact (hz i i1 i2).2⟩))
  simpa using this

/-- What is known about a record of a chain. -/
theorem Chain.mem {q e q0 : Nat} {s0 : List Nat} {L : List (Nat × List Nat)} (h : Chain NB buf P PN q L e)
    (hm : (q0, s0) ∈ L) : q0 ≠ 0 ∧ 3 ≤ s0.length ∧ s0.length < 2 ^ 64 ∧ (∀ i, q0 ≤ i → i < q0 + bodyLen s0 → P i) ∧
      (∀ j, j < NB → PN q0 (q0 + bodyLen s0 + j)) ∧ RecAt buf q0 s0 ∧ q ≤ q0 ∧ q0 + bodyLen s0 + NB ≤ e := by
  induction h with
  | nil => simp at hm
  | cons q s L e g0 g1 g2 g3 g4 g5 g6 ih =>
    rcases List.mem_cons.1 hm with h | h
    · cases h
      exact ⟨g0, g1, g2, g3, g4, g5, Nat.le_refl _, g6.le.1⟩
    · obtain ⟨a1, a2, a3, a4, a5, a6, a7, a8⟩ := ih h
      exact ⟨a1, a2, a3, a4, a5, a6, by omega, a8⟩
  | jump q x L e g0 g1 g2 g3 g4 g5 gh ih =>
    obtain ⟨a1, a2, a3, a4, a5, a6, a7, a8⟩ := ih hm
    exact ⟨a1, a2, a3, a4, a5, a6, by omega, a8⟩

theorem Chain.sorted {q e : Nat} {L : List (Nat × List Nat)} (h : Chain NB buf P PN q L e) :
    L.Pairwise (fun a b => a.1 + bodyLen a.2 + NB ≤ b.1) := by
  induction h with
  | nil => exact List.Pairwise.nil
  | cons q s L e g0 g1 g2 g3 g4 g5 g6 ih =>
    refine List.Pairwise.cons ?_ ih
    rintro ⟨q', s'⟩ hm
    exact (g6.mem hm).2.2.2.2.2.2.1
  | jump q x L e g0 g1 g2 g3 g4 g5 gh ih => exact ih

/-- The end mark lies in the buffer. -/
theorem Chain.end_lt {q e k : Nat} {L : List (Nat × List Nat)} (h : Chain NB buf P PN q L e) (hP : ∀ i, P i → i < k) :
    e + 11 < k := hP _ (h.tail.zeros rfl (e + 11) (by omega) (by omega)).1

theorem compareLoop_spec (T : Mem Nat) (p : Nat) (buf : Mem Nat) (base m : Nat) (hT : p + m ≤ T.size)
    (hb : base + m ≤ buf.size) : Tot (compareLoop T p buf base m) (fun i => i = m ↔
      ∀ j, j < m → T.data (p + j) = buf.data (base + j)) := by
  unfold compareLoop
  refine whileM_spec (fun i => i ≤ m ∧ ∀ j, j < i → T.data (p + j) = buf.data (base + j)) (fun i => m - i) _ (m + 1)
    0 _ ⟨by omega, by intro j hj; omega⟩ (by omega) ?_
  rintro i ⟨h1, h2⟩
  by_cases him : i < m
  · simp only [if_pos him, Tot_bind, Mem.Tot_rd]
    refine ⟨by omega, by omega, ?_⟩
    by_cases hne : T.data (p + i) ≠ buf.data (base + i)
    · rw [if_pos hne, Tot_ok]
      simp only
      constructor
      · intro h; omega
      · intro h; exact absurd (h i him) hne
    · rw [if_neg hne, Tot_ok]
      simp only
      refine ⟨⟨by omega, ?_⟩, by omega⟩
      intro j hj
      by_cases hji : j = i
      · subst hji; exact not_not.1 hne
      · exact h2 j (by omega)
  · simp only [if_neg him, Tot_ok]
    have : i = m := by omega
    subst this
    simpa using h2

theorem RecAt.getLength {q : Nat} {s : List Nat} (h : RecAt buf q s) (h1 : 1 ≤ s.length) (h2 : s.length < 2 ^ 64)
    (hs : q + bodyLen s ≤ buf.size) : getLength buf q = .ok s.length :=
  getLength_eq h.1 h1 h2 (by unfold bodyLen at hs; omega)

theorem RecAt.stringInfoLength {q : Nat} {s : List Nat} (h : RecAt buf q s) (l NB : Nat)
    (hs : q + bodyLen s ≤ buf.size) (hsm : 1 + 1 + (nb s.length + l + NB) < 2 ^ 64) :
    stringInfoLength NB buf q l = .ok (1 + 1 + (nb s.length + l + NB)) := by
  unfold HashTable.stringInfoLength
  rw [Mem.rd_ok _ (by unfold bodyLen at hs; omega), ok_bind, h.1.1]
  rw [addU64_eq (a := nb s.length) (b := l) (by omega), addU64_eq (a := nb s.length + l) (by omega), addU64_eq (by omega)]

/-- Enough iterations for a walk from `q` over the records `L`: either enough for the whole buffer, or two for every
record and one more (one less when there is a record at `q`). -/
def Enough (sz q : Nat) (L : List (Nat × List Nat)) (fuel : Nat) : Prop :=
  sz + 1 ≤ q + fuel ∨ 2 * L.length + 1 ≤ fuel ∨ (L.head?.map Prod.fst = some q ∧ 2 * L.length ≤ fuel)

theorem Enough.nil {sz q fuel : Nat} (h : Enough sz q [] fuel) (hq : q < sz) : ∃ f, fuel = f + 1 := by
  refine ⟨fuel - 1, ?_⟩
  rcases h with h | h | h
  · omega
  · simp at h; omega
  · exact absurd h.1 (by simp)

theorem Enough.cons {sz q q' fuel : Nat} {s : List Nat} {L : List (Nat × List Nat)} (h : Enough sz q ((q, s) :: L) fuel)
    (hq : q < sz) (hq' : q < q') : ∃ f, fuel = f + 1 ∧ Enough sz q' L f := by
  refine ⟨fuel - 1, ?_, ?_⟩
  · rcases h with h | h | h
    · omega
    · omega
    · have := h.2; rw [List.length_cons] at this; omega
  · rcases h with h | h | h
    · left; omega
    · right; left; rw [List.length_cons] at h; omega
    · right; left; have := h.2; rw [List.length_cons] at this; omega

theorem Enough.jump {sz q x fuel : Nat} {L : List (Nat × List Nat)} (h : Enough sz q L fuel) (hx : q < x)
    (hq : q < sz) (hh : L.head?.map Prod.fst = some x) : ∃ f, fuel = f + 1 ∧ Enough sz x L f := by
  have hne : L.head?.map Prod.fst ≠ some q := by rw [hh]; intro e; injection e; omega
  refine ⟨fuel - 1, ?_, ?_⟩
  · rcases h with h | h | h
    · omega
    · omega
    · exact absurd h.1 hne
  · rcases h with h | h | h
    · left; omega
    · right; right; exact ⟨hh, by omega⟩
    · exact absurd h.1 hne

/-- The scan of `insert_string`; when the string is new, every string of the chain has been passed, and counted. -/
theorem scan_spec {T : Mem Nat} {p m : Nat} (hT : p + m ≤ T.size) (hP : ∀ i, P i → i < buf.size) (hsm : buf.size < 2 ^ 64)
    {q e : Nat} {L : List (Nat × List Nat)} (h : Chain NB buf P PN q L e) :
    ∀ (fuel : Nat) (r : Option Nat) (coll : Nat), Enough buf.size q L fuel →
      Tot (whileM fuel (q, r, coll) (insertStep NB buf T m p)) (fun res =>
        (substr T p m ∈ L.map Prod.snd ∧ ∃ c, coll ≤ c ∧ res = .dup c) ∨
        (substr T p m ∉ L.map Prod.snd ∧ ∃ c, coll + L.length ≤ c ∧ res = .free e (some e) c)) := by
  induction h with
  | nil q h0 h1 =>
    intro fuel r coll hf
    have hq := hP q (h1 q (by omega) (by omega)).1
    obtain ⟨f, rfl⟩ := hf.nil hq
    have hl : getLength buf q = .ok 0 := by
      unfold getLength
      rw [Mem.rd_ok _ hq, ok_bind, (h1 q (by omega) (by omega)).2, if_pos rfl]
    simp only [whileM, insertStep, if_pos h0, hl, Tot_bind, Tot_ok, if_true]
    right
    exact ⟨by simp, _, by simp, rfl⟩
  | cons q s L e g0 g1 g2 g3 g4 g5 g6 ih =>
    intro fuel r coll hf
    have hsz : q + bodyLen s ≤ buf.size := by
      have := hP _ (g3 (q + bodyLen s - 1) (by unfold bodyLen; omega) (by unfold bodyLen; omega))
      omega
    obtain ⟨f, rfl, hf'⟩ := hf.cons (q' := q + bodyLen s + NB) (by unfold bodyLen at hsz; omega) (by unfold bodyLen; omega)
    have hl := g5.getLength (by omega) g2 hsz
    have hle := g6.le.1
    have hend := g6.end_lt hP
    have hi := g5.stringInfoLength s.length NB hsz (by unfold bodyLen at hle; omega)
    have hq' : addU64 q (1 + 1 + (nb s.length + s.length + NB)) = q + bodyLen s + NB := by
      unfold bodyLen at hle ⊢
      rw [addU64_eq (by omega)]; omega
    simp only [whileM, insertStep, if_pos g0, hl, ok_bind, if_neg (show ¬ s.length = 0 by omega),
      if_neg (show ¬ s.length = 2 by omega)]
    by_cases hm : s.length ≠ m
    · simp only [if_pos hm, hi, ok_bind, hq']
      refine (ih f (some q) (coll + 1) hf').mono ?_
      have hne : substr T p m ≠ s := by intro h; apply hm; rw [← h, substr_length]
      rintro res (⟨a, c, b1, b2⟩ | ⟨a, c, b1, b2⟩)
      · left; exact ⟨by simp [a], c, by omega, b2⟩
      · right
        exact ⟨by simp only [List.map_cons, List.mem_cons, not_or]; exact ⟨hne, a⟩, c, by rw [List.length_cons]; omega, b2⟩
    · have hm' : s.length = m := not_not.1 hm
      have hll : getLenlen buf q = .ok (nb s.length) := by
        unfold getLenlen; rw [Mem.rd_ok _ (by unfold bodyLen at hsz; omega), g5.1.1]
      simp only [if_neg hm, hll, ok_bind, Tot_bind]
      have hb : q + 1 + 1 + nb s.length + m ≤ buf.size := by unfold bodyLen at hsz; omega
      refine (compareLoop_spec T p buf (q + 1 + 1 + nb s.length) m hT hb).mono ?_
      intro i hi'
      have key : i = m ↔ substr T p m = s := by
        rw [hi', substr_eq_iff _ _ _ _ hm']
        constructor
        · intro h j hj; rw [h j hj, ← g5.2.2 j (by omega)]
        · intro h j hj; rw [h j hj, ← g5.2.2 j (by omega)]
      by_cases him : i = m
      · simp only [if_pos him, Tot_ok]
        left
        exact ⟨by simp [key.1 him], _, Nat.le_refl _, rfl⟩
      · simp only [if_neg him, hi, ok_bind, Tot_ok, hq']
        refine (ih f (some q) (coll + 1) hf').mono ?_
        have hne : substr T p m ≠ s := fun h => him (key.2 h)
        rintro res (⟨a, c, b1, b2⟩ | ⟨a, c, b1, b2⟩)
        · left; exact ⟨by simp [a], c, by omega, b2⟩
        · right
          exact ⟨by simp only [List.map_cons, List.mem_cons, not_or]; exact ⟨hne, a⟩, c, by rw [List.length_cons]; omega, b2⟩
  | jump q x L e g0 g1 g2 g3 g4 g5 gh ih =>
    intro fuel r coll hf
    have hsz : q + 10 ≤ buf.size := by
      have := hP _ (g3 (q + 9) (by omega) (by omega))
      omega
    obtain ⟨f, rfl, hf'⟩ := hf.jump (by omega) (by omega) gh
    simp only [whileM, insertStep, if_pos g0, g4.getLength hsz, ok_bind, if_neg (show ¬ (2 : Nat) = 0 by omega),
      if_true, getPointer_eq g4 g2 hsz]
    refine (ih f (some q) (coll + 1) hf').mono ?_
    rintro res (⟨a, c, b1, b2⟩ | ⟨a, c, b1, b2⟩)
    · left; exact ⟨a, c, by omega, b2⟩
    · right; exact ⟨a, c, by omega, b2⟩

/-- The scan of `find_name`. -/
theorem find_scan_spec {T : Mem Nat} {p m : Nat} (hT : p + m ≤ T.size) (hP : ∀ i, P i → i < buf.size) (hsm : buf.size < 2 ^ 64)
    {q e : Nat} {L : List (Nat × List Nat)} (h : Chain NB buf P PN q L e) :
    ∀ (fuel : Nat), Enough buf.size q L fuel → 
      (substr T p m ∉ L.map Prod.snd → whileM fuel q (findStep NB buf T m p) = .ok none) ∧
      (∀ q0, (q0, substr T p m) ∈ L → (L.map Prod.snd).Nodup →
        whileM fuel q (findStep NB buf T m p) = (getName NB buf q0 >>= fun x => .ok (some x))) := by
  induction h with
  | nil q h0 h1 =>
    intro fuel hf
    have hq := hP q (h1 q (by omega) (by omega)).1
    obtain ⟨f, rfl⟩ := hf.nil hq
    have hl : getLength buf q = .ok 0 := by
      unfold getLength
      rw [Mem.rd_ok _ hq, ok_bind, (h1 q (by omega) (by omega)).2, if_pos rfl]
    refine ⟨fun _ => ?_, fun q0 hm => by simp at hm⟩
    simp only [whileM, findStep, if_pos h0, hl, ok_bind, if_true]
  | cons q s L e g0 g1 g2 g3 g4 g5 g6 ih =>
    intro fuel hf
    have hsz : q + bodyLen s ≤ buf.size := by
      have := hP _ (g3 (q + bodyLen s - 1) (by unfold bodyLen; omega) (by unfold bodyLen; omega))
      omega
    obtain ⟨f, rfl, hf'⟩ := hf.cons (q' := q + bodyLen s + NB) (by unfold bodyLen at hsz; omega) (by unfold bodyLen; omega)
    have hl := g5.getLength (by omega) g2 hsz
    have hle := g6.le.1
    have hend := g6.end_lt hP
    have hi := g5.stringInfoLength s.length NB hsz (by unfold bodyLen at hle; omega)
    have hq' : addU64 q (1 + 1 + (nb s.length + s.length + NB)) = q + bodyLen s + NB := by
      unfold bodyLen at hle ⊢
      rw [addU64_eq (by omega)]; omega
    have ihf := ih f hf'
    simp only [whileM, findStep, if_pos g0, hl, ok_bind, if_neg (show ¬ s.length = 0 by omega),
      if_neg (show ¬ s.length = 2 by omega)]
    by_cases hm : s.length ≠ m
    · simp only [if_pos hm, hi, ok_bind, hq']
      have hne : substr T p m ≠ s := by intro h; apply hm; rw [← h, substr_length]
      constructor
      · intro h
        exact ihf.1 (fun h' => h (by simp [h']))
      · intro q0 hmem hnd
        rcases List.mem_cons.1 hmem with h | h
        · cases h; exact absurd rfl hne
        · exact ihf.2 q0 h (by rw [List.map_cons] at hnd; exact (List.nodup_cons.1 hnd).2)
    · have hm' : s.length = m := not_not.1 hm
      have hll : getLenlen buf q = .ok (nb s.length) := by
        unfold getLenlen; rw [Mem.rd_ok _ (by unfold bodyLen at hsz; omega), g5.1.1]
      simp only [if_neg hm, hll, ok_bind]
      have hb : q + 1 + 1 + nb s.length + m ≤ buf.size := by unfold bodyLen at hsz; omega
      obtain ⟨i, hok, hi'⟩ := Tot_iff.1 (compareLoop_spec T p buf (q + 1 + 1 + nb s.length) m hT hb)
      have key : i = m ↔ substr T p m = s := by
        rw [hi', substr_eq_iff _ _ _ _ hm']
        constructor
        · intro h j hj; rw [h j hj, ← g5.2.2 j (by omega)]
        · intro h j hj; rw [h j hj, ← g5.2.2 j (by omega)]
      simp only [hok, ok_bind]
      by_cases him : i = m
      · have hs := key.1 him
        constructor
        · intro h; exact absurd hs (fun h' => h (by simp [h']))
        · intro q0 hmem hnd
          rcases List.mem_cons.1 hmem with h | h
          · have hq0 : q0 = q := (Prod.mk.inj h).1
            subst hq0
            simp only [if_pos him]
            cases getName NB buf q0 <;> rfl
          · exfalso
            rw [List.map_cons, List.nodup_cons] at hnd
            apply hnd.1
            rw [← hs]
            exact List.mem_map.2 ⟨_, h, rfl⟩
      · simp only [if_neg him, hi, ok_bind, hq']
        have hne : substr T p m ≠ s := fun h => him (key.2 h)
        constructor
        · intro h
          exact ihf.1 (fun h' => h (by simp [h']))
        · intro q0 hmem hnd
          rcases List.mem_cons.1 hmem with h | h
          · cases h; exact absurd rfl hne
          · exact ihf.2 q0 h (by rw [List.map_cons] at hnd; exact (List.nodup_cons.1 hnd).2)
  | jump q x L e g0 g1 g2 g3 g4 g5 gh ih =>
    intro fuel hf
    have hsz : q + 10 ≤ buf.size := by
      have := hP _ (g3 (q + 9) (by omega) (by omega))
      omega
    obtain ⟨f, rfl, hf'⟩ := hf.jump (by omega) (by omega) gh
    simp only [whileM, findStep, if_pos g0, g4.getLength hsz, ok_bind, if_neg (show ¬ (2 : Nat) = 0 by omega),
      if_true, getPointer_eq g4 g2 hsz]
    exact ih f hf'

/-- Writing a record and the zero bytes after it. -/
theorem writeRecord_tot {T : Mem Nat} {p m : Nat} (NB r : Nat) (hT : p + m ≤ T.size) (h1 : 1 ≤ m) (h2 : m < 2 ^ 64)
    (hs : r + bodyLen (substr T p m) + NB + 12 ≤ buf.size)
    (hz : m % 256 ≠ 0 ∨ ∀ i, r + 1 ≤ i → i < r + 1 + nb m → buf.data i = 0) :
    Tot (writeRecord NB buf T m p (nb m) r) (fun buf' => buf'.size = buf.size ∧ RecAt buf' r (substr T p m) ∧
      (∀ i, r + bodyLen (substr T p m) + NB ≤ i → i < r + bodyLen (substr T p m) + NB + 12 → buf'.data i = 0) ∧
      ∀ i, (i < r ∨ (r + bodyLen (substr T p m) ≤ i ∧ i < r + bodyLen (substr T p m) + NB) ∨
        r + bodyLen (substr T p m) + NB + 12 ≤ i) → buf'.data i = buf.data i) := by
  have hlen := substr_length T p m
  have hbl : bodyLen (substr T p m) = 2 + nb m + m := by unfold bodyLen; rw [hlen]
  rw [hbl] at hs ⊢
  unfold writeRecord
  rw [Tot_bind]
  refine (setLength_tot buf r m h1 h2 (by omega) hz).mono ?_
  rintro b1 ⟨a1, a2, a3⟩
  simp only [Tot_bind, Mem.Tot_rd, Mem.Tot_wr]
  refine ⟨by omega, by omega, ?_⟩
  refine (loopUp_spec (fun i (b : Mem Nat) => b.size = buf.size ∧
    (∀ j, j < i → b.data (r + 2 + nb m + j) = T.data (p + j)) ∧
    ∀ j, (j < r + 2 + nb m ∨ r + 2 + nb m + i ≤ j) → 
      b.data j = (b1.upd (r + (1 + nb m)) ((T.data p + 1) % 256)).data j) 0 m _ _
    ⟨by simpa using a1, by intro j hj; omega, fun _ _ => rfl⟩ ?_).mono ?_
  · rintro i b _ i2 ⟨c1, c2, c3⟩
    simp only [Tot_bind, Mem.Tot_rd, Mem.Tot_wr]
    rw [show r + (1 + nb m) + 1 + i = r + 2 + nb m + i by omega]
    refine ⟨by omega, by omega, by simpa using c1, ?_, ?_⟩
    · intro j hj
      by_cases hji : j = i
      · subst hji; simp
      · rw [Mem.upd_data_ne _ _ (by omega)]; exact c2 j (by omega)
    · intro j hj
      rw [Mem.upd_data_ne _ _ (by omega)]; exact c3 j (by omega)
  · rintro b2 ⟨c1, c2, c3⟩
    rw [Nat.zero_add] at c2 c3
    refine (loopUp_spec (fun i (b : Mem Nat) => b.size = buf.size ∧
      (∀ j, j < i → b.data (r + 2 + nb m + m + NB + j) = 0) ∧
      ∀ j, (j < r + 2 + nb m + m + NB ∨ r + 2 + nb m + m + NB + i ≤ j) → b.data j = b2.data j) 0 12 _ _
      ⟨by simpa using c1, by intro j hj; omega, fun _ _ => rfl⟩ ?_).mono ?_
    · rintro i b _ i2 ⟨d1, d2, d3⟩
      simp only [Mem.Tot_wr]
      rw [show r + (1 + nb m) + 1 + m + NB + i = r + 2 + nb m + m + NB + i by omega]
      refine ⟨by omega, by simpa using d1, ?_, ?_⟩
      · intro j hj
        by_cases hji : j = i
        · subst hji; simp
        · rw [Mem.upd_data_ne _ _ (by omega)]; exact d2 j (by omega)
      · intro j hj
        rw [Mem.upd_data_ne _ _ (by omega)]; exact d3 j (by omega)
    · rintro b3 ⟨d1, d2, d3⟩
      rw [Nat.zero_add] at d2 d3
      refine ⟨d1, ⟨?_, ?_, ?_⟩, ?_, ?_⟩
      · rw [hlen]
        refine a2.congr ?_
        intro i i1 i2
        rw [d3 _ (by omega), c3 _ (by omega), Mem.upd_data_ne _ _ (by omega)]
      · rw [hlen, d3 _ (by omega), c3 _ (by omega), show r + 1 + nb m = r + (1 + nb m) by omega, Mem.upd_data_self,
          substr_getD _ _ _ _ (by omega)]
        rfl
      · rw [hlen]
        intro j hj
        rw [d3 _ (by omega), c2 j hj, substr_getD _ _ _ _ hj]
      · intro i i1 i2
        have := d2 (i - (r + 2 + nb m + m + NB)) (by omega)
        rwa [show r + 2 + nb m + m + NB + (i - (r + 2 + nb m + m + NB)) = i by omega] at this
      · intro i hi
        rw [d3 _ (by omega), c3 _ (by omega), Mem.upd_data_ne _ _ (by omega), a3 _ (by omega)]

end HashTable
end Flbwt
