import Verif.HashOps
import Mathlib.Data.List.Perm.Subperm
import Mathlib.Algebra.BigOperators.Ring.List

/-!
# Properties C15 – C19, C31 (hash table)
-/

namespace Flbwt
namespace HashTable

/-- a byte string in its own block of memory -/
def ofList (s : List Nat) : Mem Nat := ⟨s.length, fun i => s.getD i 0⟩

theorem substr_ofList (s : List Nat) : substr (ofList s) 0 s.length = s := by
  rw [substr_eq_iff _ _ _ _ rfl]
  intro j _
  simp [ofList]

/-- calls of the table's user: `insert_string(|s|, s)` or `find_name(|s|, s)` -/
inductive HOp where
  | insert (s : List Nat) | find (s : List Nat)

/-- observable results: the returned status; a name; the exception `std::runtime_error` -/
inductive HOut where
  | status (r : Nat) | found | notFound
  deriving DecidableEq

def HOp.exec (junk : Fresh) (ht : HashTable) : HOp → M (HashTable × HOut)
  | .insert s => do
    let r ← insertString junk ht (ofList s) s.length 0
    .ok (r.1, .status r.2)
  | .find s =>
    match findName ht (ofList s) s.length 0 with
    | .ok _ => .ok (ht, .found)
    | .error (.throw .runtimeError) => .ok (ht, .notFound)
    | .error e => .error e

def HOp.execs (junk : Fresh) (ht : HashTable) : List HOp → M (HashTable × List HOut)
  | [] => .ok (ht, [])
  | op :: ops => do
    let r ← op.exec junk ht
    let r' ← HOp.execs junk r.1 ops
    .ok (r'.1, r.2 :: r'.2)

/-- Specification: the table is a set of strings. -/
def HOp.spec (seen : List (List Nat)) : List HOp → List HOut
  | [] => []
  | .insert s :: ops => .status (if s ∈ seen then 0 else 1) :: HOp.spec (s :: seen) ops
  | .find s :: ops => (if s ∈ seen then .found else .notFound) :: HOp.spec seen ops

/-- memory that may be needed for a history -/
def HOp.need : List HOp → Nat
  | [] => 0
  | .insert s :: ops => 530 + s.length + HOp.need ops
  | .find _ :: ops => HOp.need ops

/-- condition on the strings: at least 3 bytes; lengths that are multiples of 256 are only allowed if fresh memory
contains zeros (see C18) -/
def HOp.okFor (junk : Fresh) : HOp → Prop
  | .insert s => 3 ≤ s.length ∧ (s.length % 256 ≠ 0 ∨ ∀ i, junk i % 256 = 0)
  | .find _ => True

/-- The table after some insertions. -/
def Good (ht : HashTable) (seen : List (List Nat)) : Prop :=
  ∃ own ents E, Tab ht own ents E ∧ (∀ s, Has ht ents s ↔ s ∈ seen) ∧ 1 ≤ ht.nameBytes ∧ ht.nameBytes ≤ 8

theorem insert_good (junk : Fresh) {ht : HashTable} {seen : List (List Nat)} (g : Good ht seen) (s : List Nat)
    (h3 : 3 ≤ s.length) (hj : s.length % 256 ≠ 0 ∨ ∀ i, junk i % 256 = 0) (hsp : junk.Room (ht.bufsize + 530 + s.length)) :
    Tot (insertString junk ht (ofList s) s.length 0) (fun r => Good r.1 (s :: seen) ∧ r.2 = (if s ∈ seen then 0 else 1) ∧
      r.1.bufsize ≤ ht.bufsize + 530 + s.length ∧ r.1.nameBytes = ht.nameBytes) := by
  obtain ⟨own, ents, E, t, hset, hN1, hN8⟩ := g
  have hsub := substr_ofList s
  have hnb : nb s.length ≤ 8 := nb_le8 (by omega) (by
    have : (2 : Nat) ^ 63 < 2 ^ 64 := by norm_num
    omega)
  have hb : bodyLen s = 2 + nb s.length + s.length := rfl
  have := insertString_tot t junk (ofList s) s.length 0 (by simp [ofList]) h3 (by rw [hsub]; omega)
    (hj.imp id (fun h i _ => h i))
  rw [hsub] at this
  refine this.mono ?_
  rintro ⟨ht', r⟩ (⟨a, b, c, _, d⟩ | ⟨a, b, own', ents', E', q, t', ad⟩)
  · simp only at b d
    subst d
    have hin := (hset s).1 a
    refine ⟨⟨own, ents, E, ?_, ?_, hN1, hN8⟩, by simp [b, hin], by simp only; omega, rfl⟩
    · exact ⟨t.hts, t.hb, t.restsz, t.headsz, t.bufsz, t.small, t.ownlt, t.empty, t.chain, t.room, t.hash, t.nodup⟩
    · intro s'
      rw [show Has { ht with collisions := c } ents s' ↔ Has ht ents s' from Iff.rfl, hset s']
      constructor
      · intro h; exact List.mem_cons_of_mem _ h
      · intro h
        rcases List.mem_cons.1 h with rfl | h
        · exact hin
        · exact h
  · simp only at b
    have hin : s ∉ seen := fun h => a ((hset s).2 h)
    have hbs := ad.bufsize.2
    refine ⟨⟨own', ents', E', t', ?_, by rw [ad.nameBytes]; exact hN1, by rw [ad.nameBytes]; exact hN8⟩,
      by simp [b, hin], by simp only at hbs ⊢; omega, ad.nameBytes⟩
    intro s'
    unfold Has
    rw [ad.htsize, ad.ents]
    simp only
    rw [List.mem_cons]
    by_cases hh : hashL ht.htsize s' = hashL ht.htsize s
    · rw [if_pos hh, List.map_append, List.mem_append]
      have := hset s'
      unfold Has at this
      rw [this]
      simp only [List.map_cons, List.map_nil, List.mem_singleton]
      exact or_comm
    · rw [if_neg hh]
      have := hset s'
      unfold Has at this
      rw [this]
      constructor
      · exact Or.inr
      · rintro (rfl | h)
        · exact absurd rfl hh
        · exact h

theorem execs_good' (junk : Fresh) (ops : List HOp) : ∀ (ht : HashTable) (seen : List (List Nat)), Good ht seen →
    junk.Room (ht.bufsize + HOp.need ops) → (∀ op ∈ ops, op.okFor junk) →
    Tot (HOp.execs junk ht ops) (fun r => r.2 = HOp.spec seen ops ∧ ∃ seen', Good r.1 seen') := by
  induction ops with
  | nil => intro ht seen g _ _; exact ⟨rfl, seen, g⟩
  | cons op ops ih =>
    intro ht seen g hn hok
    have hok' := fun o ho => hok o (List.mem_cons_of_mem _ ho)
    have hop := hok op List.mem_cons_self
    cases op with
    | insert s =>
      obtain ⟨h3, hj⟩ := hop
      simp only [HOp.need] at hn
      simp only [HOp.execs, HOp.exec, Tot_bind]
      refine (insert_good junk g s h3 hj (by omega)).mono ?_
      rintro ⟨ht', r⟩ ⟨g', hr, hb, _⟩
      simp only at g' hr hb
      simp only [Tot_ok]
      refine (ih ht' (s :: seen) g' (by omega) hok').mono ?_
      rintro ⟨ht2, outs⟩ ⟨ho, hg⟩
      refine ⟨?_, hg⟩
      simp only [HOp.spec, hr]
      simp only at ho
      rw [ho]
    | find s =>
      have g0 := g
      obtain ⟨own, ents, E, t, hset, hN1, hN8⟩ := g
      simp only [HOp.need] at hn
      have hsub := substr_ofList s
      have key : HOp.exec junk ht (.find s) = .ok (ht, if s ∈ seen then .found else .notFound) := by
        unfold HOp.exec
        by_cases hin : s ∈ seen
        · have hh := (hset s).2 hin
          unfold Has at hh
          obtain ⟨⟨q, s'⟩, hq, hs'⟩ := List.mem_map.1 hh
          simp only at hs'
          subst hs'
          have hf := findName_present t (ofList s') s'.length 0 q (by simp [ofList]) (by rw [hsub]; exact hq)
          obtain ⟨nm, hnm, _⟩ := Tot_iff.1 (t.stored (hashL_lt t.hts _) hq).getName_tot
          rw [hnm] at hf
          simp only [hf, if_pos hin]
        · have hf := findName_absent t (ofList s) s.length 0 (by simp [ofList]) (by rw [hsub, hset s]; exact hin)
          simp only [hf, if_neg hin]
      simp only [HOp.execs, key, ok_bind, Tot_bind, Tot_ok]
      refine (ih ht seen g0 (by omega) hok').mono ?_
      rintro ⟨ht2, outs⟩ ⟨ho, hg⟩
      refine ⟨?_, hg⟩
      simp only [HOp.spec]
      simp only at ho
      rw [ho]

theorem execs_good (junk : Fresh) (ops : List HOp) (ht : HashTable) (seen : List (List Nat)) (g : Good ht seen)
    (hn : junk.Room (ht.bufsize + HOp.need ops)) (hok : ∀ op ∈ ops, op.okFor junk) :
    Tot (HOp.execs junk ht ops) (fun r => r.2 = HOp.spec seen ops) :=
  (execs_good' junk ops ht seen g hn hok).mono fun _ h => h.1

theorem new_good (size n : Nat) (h0 : 0 < size) (hn : n < 2 ^ 64) :
    Tot (HashTable.new size n) (fun ht => Good ht [] ∧ ht.bufsize = 0 ∧ n / 2 + 1 < 256 ^ ht.nameBytes) := by
  refine (new_tab size n h0 hn).mono ?_
  rintro ht ⟨t, h1, h2, _, _, h3, h4, h5⟩
  exact ⟨⟨_, _, _, t, by simp [Has], h4, h5⟩, h2, h3⟩

/-- **C15** For every table size, every history of `insert_string` calls with strings of at least 3 bytes, and whatever
`realloc` leaves in fresh memory: the k-th call returns 1 exactly if its string did not occur in the history before. -/
theorem C15_insert_reports_new (size n : Nat) (h0 : 0 < size) (hn : n < 2 ^ 64) (junk : Fresh)
    (ss : List (List Nat)) (hok : ∀ s ∈ ss, 3 ≤ s.length ∧ (s.length % 256 ≠ 0 ∨ ∀ i, junk i % 256 = 0))
    (hmem : junk.Room (HOp.need (ss.map .insert))) :
    Tot (do let ht ← HashTable.new size n; HOp.execs junk ht (ss.map .insert)) (fun r =>
      r.2.length = ss.length ∧
      ∀ k (hk : k < ss.length), r.2[k]? = some (.status (if ss[k] ∈ ss.take k then 0 else 1))) := by
  rw [Tot_bind]
  refine (new_good size n h0 hn).mono ?_
  rintro ht ⟨g, hb, _⟩
  refine (execs_good junk (ss.map .insert) ht [] g (by omega) ?_).mono ?_
  · intro op hop
    obtain ⟨s, hs, rfl⟩ := List.mem_map.1 hop
    exact hok s hs
  · rintro ⟨ht', outs⟩ ho
    simp only at ho
    subst ho
    have key : ∀ (l seen : List (List Nat)), (HOp.spec seen (l.map .insert)).length = l.length ∧
        ∀ k (hk : k < l.length), (HOp.spec seen (l.map .insert))[k]? =
          some (.status (if l[k] ∈ seen ∨ l[k] ∈ l.take k then 0 else 1)) := by
      intro l
      induction l with
      | nil => intro seen; simp [HOp.spec]
      | cons s l ih =>
        intro seen
        obtain ⟨i1, i2⟩ := ih (s :: seen)
        refine ⟨by simp [HOp.spec, i1], ?_⟩
        intro k hk
        cases k with
        | zero => simp [HOp.spec]
        | succ k =>
          simp only [List.length_cons] at hk
          simp only [List.map_cons, HOp.spec, List.getElem?_cons_succ, List.getElem_cons_succ, List.take_succ_cons]
          rw [i2 k (by omega)]
          simp only [List.mem_cons]
          congr 3
          simp only [eq_iff_iff]
          tauto
    obtain ⟨k1, k2⟩ := key ss []
    refine ⟨k1, ?_⟩
    intro k hk
    simpa using k2 k hk

/-- **C17** In every history of `insert_string` / `find_name` calls (inserted strings of at least 3 bytes) nothing is read
or written outside the buffer (`Tot`: no fault), every search loop ends, and the table behaves like a set of strings. -/
theorem C17_table_memory_safe (size n : Nat) (h0 : 0 < size) (hn : n < 2 ^ 64) (junk : Fresh)
    (ops : List HOp) (hok : ∀ op ∈ ops, op.okFor junk) (hmem : junk.Room (HOp.need ops)) :
    Tot (do let ht ← HashTable.new size n; HOp.execs junk ht ops) (fun r => r.2 = HOp.spec [] ops) := by
  rw [Tot_bind]
  refine (new_good size n h0 hn).mono ?_
  rintro ht ⟨g, hb, _⟩
  exact execs_good junk ops ht [] g (by omega) hok

-- the hypotheses are met by a history with collisions (table size 1), a duplicate and a failing search
example : ∀ op ∈ [HOp.insert [1, 2, 3], .insert [3, 2, 1], .find [9], .insert [1, 2, 3], .find [3, 2, 1]],
    op.okFor ⟨fun _ => 7, 3000⟩ := by
  intro op hop
  simp only [List.mem_cons, List.not_mem_nil, or_false] at hop
  rcases hop with rfl | rfl | rfl | rfl | rfl <;> simp [HOp.okFor]

example : HOp.spec [] [HOp.insert [1, 2, 3], .insert [3, 2, 1], .find [9], .insert [1, 2, 3], .find [3, 2, 1]] =
    [.status 1, .status 1, .notFound, .status 0, .found] := by decide

/-! ## Names -/

/-- Insert a list of strings. -/
def insertAll (junk : Fresh) (ht : HashTable) : List (List Nat) → M HashTable
  | [] => .ok ht
  | s :: ss => do
    let r ← insertString junk ht (ofList s) s.length 0
    insertAll junk r.1 ss

/-- Read a stored string through the record pointer with `get_length` and `get_first_character_pointer`. -/
def readString (buf : Mem Nat) (q : Nat) : M (List Nat) := do
  let l ← getLength buf q
  let c ← getFirstCharacterPointer buf q
  (List.range l).mapM fun i => buf.rd (c + i)

/-- `set_name(s[k], x)` for a list of pairs `(k, x)` -/
def setNames (ht : HashTable) (s : Mem Nat) : List (Nat × Nat) → M HashTable
  | [] => .ok ht
  | (k, x) :: ops => do
    let q ← s.rd k
    let buf ← setName ht.nameBytes ht.buf q x
    setNames { ht with buf := buf } s ops

/-- the name stored last for index `k` -/
def lastName (k : Nat) : List (Nat × Nat) → Option Nat
  | [] => none
  | (k', x) :: ops => (lastName k ops).or (if k' = k then some x else none)

theorem insertAll_good (junk : Fresh) (ss : List (List Nat)) : ∀ (ht : HashTable) (seen : List (List Nat)), Good ht seen →
    junk.Room (ht.bufsize + HOp.need (ss.map .insert)) →
    (∀ s ∈ ss, 3 ≤ s.length ∧ (s.length % 256 ≠ 0 ∨ ∀ i, junk i % 256 = 0)) →
    Tot (insertAll junk ht ss) (fun ht' => Good ht' (ss.reverse ++ seen) ∧ ht'.nameBytes = ht.nameBytes) := by
  induction ss with
  | nil => intro ht seen g _ _; exact ⟨by simpa using g, rfl⟩
  | cons s ss ih =>
    intro ht seen g hn hok
    simp only [List.map_cons, HOp.need] at hn
    have hs := hok s List.mem_cons_self
    simp only [insertAll, Tot_bind]
    refine (insert_good junk g s hs.1 hs.2 (by omega)).mono ?_
    rintro ⟨ht', r⟩ ⟨g', _, hb, hnb⟩
    simp only at g' hb hnb
    refine (ih ht' (s :: seen) g' (by omega) (fun s' h' => hok s' (List.mem_cons_of_mem _ h'))).mono ?_
    rintro ht2 ⟨g2, hnb2⟩
    refine ⟨by simpa using g2, by omega⟩

theorem mapM_ok {α β : Type} (f : α → M β) (g : α → β) : ∀ (l : List α), (∀ x ∈ l, f x = .ok (g x)) →
    l.mapM f = .ok (l.map g) := by
  intro l
  induction l with
  | nil => intro _; rfl
  | cons a l ih =>
    intro h
    rw [List.mapM_cons, h a List.mem_cons_self, ok_bind, ih (fun x hx => h x (List.mem_cons_of_mem _ hx)), ok_bind]
    rfl

theorem Stored.readString {ht : HashTable} {own : Nat → Tag} {q : Nat} {s : List Nat} (h : Stored ht own q s) :
    readString ht.buf q = .ok s := by
  unfold HashTable.readString
  rw [h.getLength, ok_bind, h.firstChar, ok_bind, mapM_ok _ (fun i => s.getD i 0)]
  · congr 1
    apply List.ext_getElem (by simp)
    intro j h1 h2
    simp [List.getD, h2]
  · intro i hi
    rw [List.mem_range] at hi
    have hb := h.bound
    unfold bodyLen at hb
    rw [Mem.rd_ok _ (by omega), h.at_.2.2 i hi]

theorem setNames_good {own : Nat → Tag} {ents : Nat → List (Nat × List Nat)} {E : Nat → Nat} (s : Mem Nat)
    (ops : List (Nat × Nat)) : ∀ (ht : HashTable), Tab ht own ents E → 1 ≤ ht.nameBytes →
    (∀ k, k < (allEnts ents ht.htsize).length → k < s.size ∧ s.data k = ((allEnts ents ht.htsize).map Prod.fst).getD k 0) →
    (∀ op ∈ ops, op.1 < (allEnts ents ht.htsize).length) →
    Tot (setNames ht s ops) (fun ht' => Tab ht' own ents E ∧ ht'.nameBytes = ht.nameBytes ∧ ht'.htsize = ht.htsize ∧
      ∀ k (hk : k < (allEnts ents ht.htsize).length),
        (∀ x, lastName k ops = some x → BE ht'.buf ((allEnts ents ht.htsize)[k].1 + bodyLen (allEnts ents ht.htsize)[k].2) ht.nameBytes x) ∧
        (lastName k ops = none → ∀ i, own i = .name (allEnts ents ht.htsize)[k].1 → ht'.buf.data i = ht.buf.data i)) := by
  induction ops with
  | nil =>
    intro ht t _ _ _
    exact ⟨t, rfl, rfl, fun k hk => ⟨by simp [lastName], fun _ _ _ => rfl⟩⟩
  | cons op ops ih =>
    intro ht t hN hs hop
    obtain ⟨k0, x0⟩ := op
    have hk0 : k0 < (allEnts ents ht.htsize).length := hop (k0, x0) List.mem_cons_self
    obtain ⟨hk1, hk2⟩ := hs k0 hk0
    have hq : s.data k0 = (allEnts ents ht.htsize)[k0].1 := by rw [hk2]; simp [List.getD, hk0]
    obtain ⟨h, hh, hx⟩ := mem_allEnts.1 (List.getElem_mem hk0)
    simp only [setNames, Tot_bind, Mem.Tot_rd]
    refine ⟨hk1, ?_⟩
    rw [hq]
    refine (setName_tab t hh (q := (allEnts ents ht.htsize)[k0].1) (s := (allEnts ents ht.htsize)[k0].2) hx x0).mono ?_
    rintro buf' ⟨t', hbe, hfr, _⟩
    refine (ih { ht with buf := buf' } t' hN hs (fun o ho => hop o (List.mem_cons_of_mem _ ho))).mono ?_
    rintro ht' ⟨a1, a2, a3, a4⟩
    simp only at a2 a3 a4
    refine ⟨a1, a2, a3, ?_⟩
    intro k hk
    obtain ⟨b1, b2⟩ := a4 k hk
    constructor
    · intro x hx
      simp only [lastName] at hx
      cases hl : lastName k ops with
      | some y =>
        rw [hl] at hx
        simp only [Option.some_or, Option.some.injEq] at hx
        subst hx
        exact b1 y hl
      | none =>
        rw [hl] at hx
        simp only [Option.none_or] at hx
        by_cases hkk : k0 = k
        · subst hkk
          rw [if_pos rfl] at hx
          simp only [Option.some.injEq] at hx
          subst hx
          refine hbe.congr ?_
          intro i i1 i2
          apply b2 hl
          have st := t.stored (q := (allEnts ents ht.htsize)[k0].1) (s := (allEnts ents ht.htsize)[k0].2) hh hx
          have := st.own_name (i - ((allEnts ents ht.htsize)[k0].1 + bodyLen (allEnts ents ht.htsize)[k0].2)) (by omega)
          rwa [show (allEnts ents ht.htsize)[k0].1 + bodyLen (allEnts ents ht.htsize)[k0].2 +
            (i - ((allEnts ents ht.htsize)[k0].1 + bodyLen (allEnts ents ht.htsize)[k0].2)) = i by omega] at this
        · rw [if_neg hkk] at hx; simp at hx
    · intro hl
      simp only [lastName] at hl
      rw [Option.or_eq_none_iff] at hl
      have hkk : k0 ≠ k := by
        intro h; rw [if_pos h] at hl; simp at hl
      intro i hi
      rw [b2 hl.1 i hi]
      apply hfr
      rw [hi]
      intro he
      have he' : (allEnts ents ht.htsize)[k].1 = (allEnts ents ht.htsize)[k0].1 := by injection he
      have := ((t.inj hN (List.getElem_mem hk) (List.getElem_mem hk0)).1).1 he'
      have hnd : (allEnts ents ht.htsize).Nodup := List.Nodup.of_map _ t.nodup_all
      exact hkk ((List.Nodup.getElem_inj_iff hnd).1 this).symm

/-- **C16** After any history of insertions: walking over the table gives pointers whose records hold exactly the inserted
strings, each once; after any sequence of `set_name` calls on these records (names up to `n/2 + 1`, the bound the
table was constructed for), `find_name(s)` returns the name stored last for `s`, and throws `std::runtime_error` exactly
for the strings that were not inserted. -/
theorem C16_find_name (size n : Nat) (h0 : 0 < size) (hn : n < 2 ^ 64) (junk : Fresh)
    (ss : List (List Nat)) (hok : ∀ s ∈ ss, 3 ≤ s.length ∧ (s.length % 256 ≠ 0 ∨ ∀ i, junk i % 256 = 0))
    (hmem : junk.Room (HOp.need (ss.map .insert))) (arr : Mem Nat) (harr : ss.length ≤ arr.size) :
    Tot (do
      let ht ← HashTable.new size n
      let ht ← insertAll junk ht ss
      let r ← collect ht arr 0
      let strs ← (List.range r.2).mapM fun k => do
        let q ← r.1.rd k
        readString ht.buf q
      .ok (ht, r.1, strs)) (fun r => match r with
        | (ht, ptrs, strs) => strs.Nodup ∧ (∀ s, s ∈ strs ↔ s ∈ ss) ∧
          ∀ names : List (Nat × Nat), (∀ op ∈ names, op.1 < strs.length ∧ op.2 ≤ n / 2 + 1) →
            Tot (setNames ht ptrs names) (fun ht' => ∀ s,
              (s ∉ ss → findName ht' (ofList s) s.length 0 = .error (.throw .runtimeError)) ∧
              (∀ k x, strs[k]? = some s → lastName k names = some x → findName ht' (ofList s) s.length 0 = .ok x))) := by
  rw [Tot_bind]
  refine (new_good size n h0 hn).mono ?_
  rintro ht ⟨g, hb, hname⟩
  rw [Tot_bind]
  refine (insertAll_good junk ss ht [] g (by omega) hok).mono ?_
  rintro ht1 ⟨⟨own, ents, E, t, hset, hN1, hN8⟩, hNB⟩
  have hin : ∀ s, s ∈ (allEnts ents ht1.htsize).map Prod.snd ↔ s ∈ ss := by
    intro s; rw [← t.has_iff, hset]; simp
  have hlen : (allEnts ents ht1.htsize).length ≤ ss.length := by
    have := (List.Nodup.subperm t.nodup_all (fun s hs => (hin s).1 hs)).length_le
    simpa using this
  rw [Tot_bind]
  refine (collect_tot t arr 0 (by omega) ht1 rfl rfl rfl (Nat.le_refl _) (fun _ _ => rfl)).mono ?_
  rintro ⟨ptrs, cnt⟩ ⟨⟨p1, p2, _⟩, hcnt⟩
  simp only [Nat.zero_add, List.length_map] at p1 p2 hcnt
  subst hcnt
  have hstr : ((List.range (allEnts ents ht1.htsize).length).mapM fun k => do
      let q ← ptrs.rd k
      readString ht1.buf q) = .ok ((allEnts ents ht1.htsize).map Prod.snd) := by
    rw [mapM_ok _ (fun k => ((allEnts ents ht1.htsize).map Prod.snd).getD k [])]
    · congr 1
      apply List.ext_getElem (by simp)
      intro j h1 h2
      simp only [List.length_map] at h2
      simp [List.getD, h2]
    · intro k hk
      rw [List.mem_range] at hk
      rw [Mem.rd_ok _ (by omega), ok_bind, p2 k hk]
      obtain ⟨h, hh, hx⟩ := mem_allEnts.1 (List.getElem_mem hk)
      have := (t.stored (q := (allEnts ents ht1.htsize)[k].1) (s := (allEnts ents ht1.htsize)[k].2) hh hx).readString
      simpa [List.getD, hk] using this
  simp only [hstr, ok_bind, Tot_ok]
  refine ⟨t.nodup_all, hin, ?_⟩
  intro names hnames
  refine (setNames_good ptrs names ht1 t hN1 (fun k hk => ⟨by omega, p2 k hk⟩)
    (fun op hop => by simpa using (hnames op hop).1)).mono ?_
  rintro ht2 ⟨t2, e1, e2, e3⟩ s
  have hsub := substr_ofList s
  have hhas : Has ht2 ents s ↔ s ∈ ss := by unfold Has; rw [e2]; rw [show s ∈ _ ↔ Has ht1 ents s from Iff.rfl, hset]; simp
  constructor
  · intro hns
    exact findName_absent t2 (ofList s) s.length 0 (by simp [ofList]) (by rw [hsub, hhas]; exact hns)
  · intro k x hk hx
    obtain ⟨hk', hks⟩ := List.getElem?_eq_some_iff.1 hk
    simp only [List.length_map] at hk'
    simp only [List.getElem_map] at hks
    obtain ⟨h, hh, hmem'⟩ := mem_allEnts.1 (List.getElem_mem hk')
    have hhash := t.hash h hh _ hmem'
    have hmem2 : ((allEnts ents ht1.htsize)[k].1, s) ∈ ents (hashL ht2.htsize s) := by
      rw [e2, ← hks, hhash]
      exact hmem'
    have hst := t2.stored (hashL_lt t2.hts s) hmem2
    rw [findName_present t2 (ofList s) s.length 0 (allEnts ents ht1.htsize)[k].1 (by simp [ofList]) (by rw [hsub]; exact hmem2)]
    have hbe := (e3 k hk').1 x hx
    rw [hks] at hbe
    refine hst.getName_eq (by omega) ?_ (by rw [e1]; exact hbe)
    have hxle : ∀ (ops : List (Nat × Nat)), (∀ op ∈ ops, op.2 ≤ n / 2 + 1) → lastName k ops = some x → x ≤ n / 2 + 1 := by
      intro ops
      induction ops with
      | nil => intro _ h; simp [lastName] at h
      | cons o ops ih =>
        intro ho h
        simp only [lastName] at h
        cases hl : lastName k ops with
        | some y =>
          rw [hl] at h
          simp only [Option.some_or, Option.some.injEq] at h
          subst h
          exact ih (fun o' h' => ho o' (List.mem_cons_of_mem _ h')) hl
        | none =>
          rw [hl] at h
          simp only [Option.none_or] at h
          by_cases hkk : o.1 = k
          · rw [if_pos hkk] at h
            simp only [Option.some.injEq] at h
            rw [← h]
            exact ho o List.mem_cons_self
          · rw [if_neg hkk] at h; simp at h
    have := hxle names (fun op hop => (hnames op hop).2) hx
    rw [e1, hNB]
    omega

-- the hypotheses are met: a table of one bucket, three insertions (one duplicate), fresh memory filled with 255
example : ∀ s ∈ [[1, 2, 3], [4, 5, 6, 7], [1, 2, 3]], 3 ≤ s.length ∧ (s.length % 256 ≠ 0 ∨ ∀ i, (fun _ : Nat => 255) i % 256 = 0) := by
  intro s hs
  simp only [List.mem_cons, List.not_mem_nil, or_false] at hs
  rcases hs with rfl | rfl | rfl <;> simp

example : (⟨fun _ => 7, 3000⟩ : Fresh).Room (HOp.need ([[1, 2, 3], [4, 5, 6, 7], [1, 2, 3]].map .insert)) := by decide

example : lastName 1 [(1, 5), (0, 2), (1, 7)] = some 7 := by decide

/-! ## Fields -/

/-- **C18** (positive part) `get_length` returns what `set_length` stored, for every length `1 ≤ l < 2^64`, if the length is not
a multiple of 256 or the bytes of the field were zero before. Nothing outside the field changes. -/
theorem C18_length_round_trip (buf : Mem Nat) (p l : Nat) (h1 : 1 ≤ l) (h2 : l < 2 ^ 64) (hs : p + 9 ≤ buf.size)
    (hz : l % 256 ≠ 0 ∨ ∀ i, p + 1 ≤ i → i < p + 9 → buf.data i = 0) :
    Tot (setLength buf p l) (fun buf' => getLength buf' p = .ok l ∧ buf'.size = buf.size ∧
      ∀ i, (i < p ∨ p + 9 ≤ i) → buf'.data i = buf.data i) := by
  have h8 := nb_le8 h1 h2
  refine (setLength_tot buf p l h1 h2 (by omega) (hz.imp id (fun h i i1 i2 => h i i1 (by omega)))).mono ?_
  rintro buf' ⟨e1, e2, e3⟩
  exact ⟨getLength_eq e2 h1 h2 (by omega), e1, fun i hi => e3 i (by omega)⟩

/-- **C18** (violation) For every multiple of 256 the round trip fails on a buffer filled with bytes 255: `get_length`
returns a larger value. So `set_length` depends on the old contents for exactly these lengths. -/
theorem C18_length_round_trip_fails (size p l : Nat) (h1 : 1 ≤ l) (h2 : l < 2 ^ 64) (hs : p + 9 ≤ size) (hm : l % 256 = 0) :
    Tot (setLength ⟨size, fun _ => 255⟩ p l) (fun buf' => ∃ l', getLength buf' p = .ok l' ∧ l < l') := by
  have h8 := nb_le8 h1 h2
  have hb1 := nb_pos l
  refine (setLength_raw ⟨size, fun _ => 255⟩ p l h1 h2 (by simp only; omega)).mono ?_
  rintro buf' ⟨e1, e2, t, e3, e4, e5, e6, e7⟩
  have hu : nb l - t ≠ 0 := by
    intro hc
    rw [hc] at e5
    exact e5 (by simpa using Nat.dvd_of_mod_eq_zero hm)
  obtain ⟨u, hu⟩ : ∃ u, nb l - t = u + 1 := ⟨nb l - t - 1, by omega⟩
  rw [hu] at e4
  obtain ⟨c, hc⟩ := e4
  have hpos : 1 ≤ 256 ^ (u + 1) := Nat.one_le_pow _ _ (by norm_num)
  have hpos2 : 256 ≤ 256 ^ (u + 1) := by
    have : (256 : Nat) ^ 1 ≤ 256 ^ (u + 1) := Nat.pow_le_pow_right (by norm_num) (by omega)
    simpa using this
  have hlt : l + (256 ^ (u + 1) - 1) < 256 ^ nb l := by
    have h3 := nb_lt l
    have hn : (256 : Nat) ^ nb l = 256 ^ (u + 1) * 256 ^ t := by rw [← pow_add]; congr 1; omega
    rw [hn] at h3 ⊢
    rw [hc] at h3 ⊢
    have h5 : c < 256 ^ t := Nat.lt_of_mul_lt_mul_left h3
    have h4 : 256 ^ (u + 1) * (c + 1) ≤ 256 ^ (u + 1) * 256 ^ t := Nat.mul_le_mul_left _ h5
    rw [Nat.mul_add, Nat.mul_one] at h4
    exact lt_of_lt_of_le (Nat.add_lt_add_left (Nat.sub_lt (by omega) (by omega)) _) h4
  have hnb : nb (l + (256 ^ (u + 1) - 1)) = nb l := nb_unique hb1 (by have := nb_le h1; omega) hlt
  have hX64 : l + (256 ^ (u + 1) - 1) < 2 ^ 64 := by
    have : (256 : Nat) ^ nb l ≤ 256 ^ 8 := Nat.pow_le_pow_right (by norm_num) h8
    have h64 : (256 : Nat) ^ 8 = 2 ^ 64 := by norm_num
    omega
  refine ⟨l + (256 ^ (u + 1) - 1), getLength_eq ⟨by rw [hnb]; exact e2, ?_⟩ (by omega) hX64 (by rw [e1, hnb]; simp only; omega), by omega⟩
  rw [hnb]
  intro j hj
  by_cases hjt : j < t
  · rw [e6 j hjt, show nb l - 1 - j = (u + 1) + (t - 1 - j) by omega, pow_add, ← Nat.div_div_eq_div_mul,
      ← Nat.div_div_eq_div_mul, hc]
    rw [Nat.mul_div_cancel_left _ (by positivity), Nat.add_comm (256 ^ (u + 1) * c), Nat.add_mul_div_left _ _ (by positivity),
      Nat.div_eq_of_lt (Nat.sub_lt (by omega) (by omega)), Nat.zero_add]
  · rw [e7 _ (by omega)]
    simp only
    have hv : nb l - 1 - j ≤ u := by omega
    obtain ⟨w, hw⟩ : ∃ w, u + 1 = (nb l - 1 - j) + (w + 1) := ⟨u - (nb l - 1 - j), by omega⟩
    generalize nb l - 1 - j = v at *
    have hX : l + (256 ^ (u + 1) - 1) = 256 ^ v * (256 * (256 ^ w * c + 256 ^ w - 1) + 255) + (256 ^ v - 1) := by
      have hw1 : 1 ≤ 256 ^ w := Nat.one_le_pow _ _ (by norm_num)
      have hv1 : 1 ≤ 256 ^ v := Nat.one_le_pow _ _ (by norm_num)
      rw [hc, hw, pow_add, pow_succ]
      obtain ⟨a, ha⟩ : ∃ a, 256 ^ w = a + 1 := ⟨256 ^ w - 1, by omega⟩
      obtain ⟨b, hb⟩ : ∃ b, 256 ^ v = b + 1 := ⟨256 ^ v - 1, by omega⟩
      rw [ha, hb]
      have e1 : (a + 1) * c + (a + 1) - 1 = (a + 1) * c + a := by omega
      have e2 : b + 1 - 1 = b := by omega
      rw [e1, e2]
      have e3 : (b + 1) * ((a + 1) * 256) - 1 = (b + 1) * (a * 256 + 255) + b := by
        have : (b + 1) * ((a + 1) * 256) = (b + 1) * (a * 256 + 255) + b + 1 := by ring
        omega
      rw [e3]
      ring
    rw [hX, Nat.add_comm, Nat.add_mul_div_left _ _ (by positivity), Nat.div_eq_of_lt (by
      have : 1 ≤ 256 ^ v := Nat.one_le_pow _ _ (by norm_num)
      omega), Nat.zero_add]
    omega

-- lengths on both sides of the boundary
example : (255 : Nat) % 256 ≠ 0 ∧ (256 : Nat) % 256 = 0 ∧ (70000 : Nat) % 256 ≠ 0 := by decide

theorem getLength_congr {buf buf' : Mem Nat} {p : Nat} (hs : buf'.size = buf.size)
    (h : ∀ i, i < p + 1 + buf.data p → p ≤ i → buf'.data i = buf.data i) : getLength buf' p = getLength buf p := by
  unfold getLength Mem.rd
  rw [hs, h p (by omega) (by omega)]
  by_cases hp : p < buf.size
  · simp only [if_pos hp, ok_bind]
    by_cases h0 : buf.data p = 0
    · simp only [if_pos h0]
    · simp only [if_neg h0]
      rw [h (p + 1) (by omega) (by omega)]
      by_cases hp1 : p + 1 < buf.size
      · simp only [if_pos hp1, ok_bind]
        have key : ∀ cnt lo x, lo + cnt ≤ buf.data p →
            loopUp lo cnt x (fun i x => do
              let b ← (if p + 1 + i < buf.size then (.ok (buf'.data (p + 1 + i)) : M Nat) else .error (.ub .outOfBounds))
              .ok (shl8 x ||| b)) = loopUp lo cnt x (fun i x => do
              let b ← (if p + 1 + i < buf.size then (.ok (buf.data (p + 1 + i)) : M Nat) else .error (.ub .outOfBounds))
              .ok (shl8 x ||| b)) := by
          intro cnt
          induction cnt with
          | zero => intro lo x _; rfl
          | succ c ih =>
            intro lo x hle
            simp only [loopUp]
            rw [h (p + 1 + lo) (by omega) (by omega)]
            congr 1
            funext s
            exact ih (lo + 1) s (by omega)
        exact key _ _ _ (by omega)
      · simp only [if_neg hp1]
        rfl
  · simp only [if_neg hp]
    rfl

/-- **C19** Pointer and name fields: `get_pointer` returns every 64-bit pointer stored by `set_pointer`; `get_name` returns every
name below `256^NAME_BYTES` stored by `set_name`; neither call changes a byte outside its field, and `set_name` keeps
the length field. -/
theorem C19_pointer_and_name_round_trip (buf : Mem Nat) (p x NB : Nat) :
    (x < 2 ^ 64 → p + 10 ≤ buf.size → Tot (setPointer buf p x) (fun buf' => getPointer buf' p = .ok x ∧
      getLength buf' p = .ok 2 ∧ buf'.size = buf.size ∧ ∀ i, (i < p ∨ p + 10 ≤ i) → buf'.data i = buf.data i)) ∧
    (∀ len, NB ≤ 8 → x < 256 ^ NB → getLength buf p = .ok len → p + 2 + (buf.data p + len) + NB ≤ buf.size →
      Tot (setName NB buf p x) (fun buf' => getName NB buf' p = .ok x ∧ getLength buf' p = .ok len ∧ buf'.size = buf.size ∧
        ∀ i, (i < p + 2 + (buf.data p + len) ∨ p + 2 + (buf.data p + len) + NB ≤ i) → buf'.data i = buf.data i)) := by
  constructor
  · intro hx hs
    refine (setPointer_tot buf p x hs).mono ?_
    rintro buf' ⟨e1, e2, e3⟩
    exact ⟨getPointer_eq e2 hx (by omega), e2.getLength (by omega), e1, e3⟩
  · intro len hNB hx hlen hs
    unfold setName
    rw [hlen, ok_bind, Mem.rd_ok _ (by omega), ok_bind, Tot_bind]
    refine (writeBE buf (p + 2 + (buf.data p + len)) NB x hs (fun i => p + 1 + (buf.data p + len) + 1 + (NB - 1) - i)
      (fun i hi => by omega)).mono ?_
    rintro ⟨b, y⟩ ⟨e1, e2, e3⟩
    simp only at e1 e2 e3
    simp only [Tot_ok]
    have hl : getLength b p = .ok len := by
      rw [← hlen]
      exact getLength_congr e1 (fun i i1 i2 => e3 i (by omega))
    refine ⟨?_, hl, e1, e3⟩
    unfold getName
    rw [hl, ok_bind, Mem.rd_ok _ (by omega), ok_bind, e3 p (by omega)]
    have := readBE b (p + 2 + (buf.data p + len)) NB x (p + 1 + (buf.data p + len) + 1) hNB hx (by omega) e2 0 (by omega) (by omega)
    rw [Nat.sub_zero, Nat.div_eq_of_lt hx] at this
    exact this

-- a record of length 3 in a buffer of 16 bytes meets the hypotheses of the second part
example : getLength ⟨16, fun i => if i = 2 then 1 else if i = 3 then 3 else 0⟩ 2 = .ok 3 := by decide

/-- **C31** `hash_function` is in range, depends only on the `m` bytes at `p` and is the polynomial hash with base 101
modulo 2^64 modulo the table size. -/
theorem C31_hash_function (htsize : Nat) (T : Mem Nat) (m p : Nat) (h0 : 0 < htsize) (hs : p + m ≤ T.size) :
    hashFunction htsize T m p =
      .ok (((List.range m).map fun i => T.data (p + i) * 101 ^ (m - 1 - i)).sum % 2 ^ 64 % htsize) ∧
    ((List.range m).map fun i => T.data (p + i) * 101 ^ (m - 1 - i)).sum % 2 ^ 64 % htsize < htsize := by
  refine ⟨?_, Nat.mod_lt _ h0⟩
  rw [hashFunction_eq _ _ _ _ h0 hs]
  unfold hashL
  congr 2
  have key : ∀ m, (substr T p m).foldl (fun x c => (x * 101 % 18446744073709551616 + c) % 18446744073709551616) 0 =
      ((List.range m).map fun i => T.data (p + i) * 101 ^ (m - 1 - i)).sum % 18446744073709551616 := by
    intro m
    induction m with
    | zero => simp [substr]
    | succ m ih =>
      rw [substr_succ, List.foldl_append, ih]
      simp only [List.foldl_cons, List.foldl_nil]
      rw [List.range_succ, List.map_append, List.sum_append]
      have : ((List.range m).map fun i => T.data (p + i) * 101 ^ (m + 1 - 1 - i)).sum =
          ((List.range m).map fun i => T.data (p + i) * 101 ^ (m - 1 - i)).sum * 101 := by
        rw [← List.sum_map_mul_right]
        congr 1
        apply List.map_congr_left
        intro i hi
        rw [List.mem_range] at hi
        rw [Nat.mul_assoc, ← pow_succ, show m - 1 - i + 1 = m + 1 - 1 - i by omega]
      rw [this]
      simp only [List.map_cons, List.map_nil, List.sum_cons, List.sum_nil, Nat.add_zero]
      rw [show m + 1 - 1 - m = 0 by omega, pow_zero, Nat.mul_one]
      rw [Nat.mod_add_mod, Nat.add_mod, Nat.mod_mul_mod, ← Nat.add_mod]
  rw [key m]
  norm_num

end HashTable
end Flbwt
