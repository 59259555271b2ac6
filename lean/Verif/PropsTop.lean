import Verif.PropsFront
import Verif.BwtSpec

/-!
# Properties C01 – C06, C32, C35 (the whole of `bwt_string`)
-/

namespace Flbwt

open HashTable (ok_bind)

/-! ## A sorting procedure that meets the contract -/

/-- insertion into a sorted list, with the comparison of the model -/
def insM (lt : Nat → Nat → M Bool) (a : Nat) : List Nat → M (List Nat)
  | [] => .ok [a]
  | b :: l => do
    let c ← lt b a
    if c then do
      let r ← insM lt a l
      .ok (b :: r)
    else .ok (a :: b :: l)

/-- insertion sort -/
def insSort : Sorter
  | _, [] => .ok []
  | lt, a :: l => do
    let r ← insSort lt l
    insM lt a r

theorem insM_ok {cmp : Nat → Nat → M Bool} {lt : Nat → Nat → Bool} {U : List Nat} (hc : ∀ a ∈ U, ∀ b ∈ U, cmp a b = .ok (lt a b))
    (hw : StrictWeak lt U) (a : Nat) (ha : a ∈ U) : ∀ l : List Nat, (∀ x ∈ l, x ∈ U) → l.Pairwise (fun a b => lt b a = false) →
    ∃ l', insM cmp a l = .ok l' ∧ l'.Perm (a :: l) ∧ l'.Pairwise (fun a b => lt b a = false) := by
  intro l
  induction l with
  | nil => intro _ _; exact ⟨[a], rfl, List.Perm.refl _, List.pairwise_singleton _ _⟩
  | cons b l ih =>
    intro hU hp
    have hb := hU b List.mem_cons_self
    rw [List.pairwise_cons] at hp
    rw [insM, hc b hb a ha, ok_bind]
    cases hba : lt b a with
    | true =>
      obtain ⟨r, e, h1, h2⟩ := ih (fun x hx => hU x (List.mem_cons_of_mem _ hx)) hp.2
      refine ⟨b :: r, by simp only [if_true]; rw [e, ok_bind], ?_, ?_⟩
      · exact (List.Perm.cons b h1).trans (List.Perm.swap a b l)
      · rw [List.pairwise_cons]
        refine ⟨fun x hx => ?_, h2⟩
        rcases List.mem_cons.1 (h1.mem_iff.1 hx) with rfl | hx'
        · cases hab : lt x b with
          | false => rfl
          | true => exact absurd (hw.trans b hb x ha b hb hba hab) (by rw [hw.irrefl b hb]; simp)
        · exact hp.1 x hx'
    | false =>
      refine ⟨a :: b :: l, by simp, List.Perm.refl _, ?_⟩
      rw [List.pairwise_cons, List.pairwise_cons]
      refine ⟨fun x hx => ?_, hp.1, hp.2⟩
      rcases List.mem_cons.1 hx with rfl | hx'
      · exact hba
      · exact hw.incomp x (hU x hx) b hb a ha (hp.1 x hx') hba

/-- Insertion sort meets the contract of `std::sort`, so the hypothesis `SortsOK` can be met. -/
theorem insSort_ok : SortsOK insSort := by
  intro cmp lt l hc hw
  suffices h : ∀ l', (∀ x ∈ l', x ∈ l) → ∃ r, insSort cmp l' = .ok r ∧ r.Perm l' ∧ r.Pairwise (fun a b => lt b a = false) from
    h l (fun _ h => h)
  intro l'
  induction l' with
  | nil => intro _; exact ⟨[], rfl, List.Perm.refl _, List.Pairwise.nil⟩
  | cons a l' ih =>
    intro hU
    obtain ⟨r, e, h1, h2⟩ := ih (fun x hx => hU x (List.mem_cons_of_mem _ hx))
    obtain ⟨r', e', h1', h2'⟩ := insM_ok hc hw a (hU a List.mem_cons_self) r
      (fun x hx => hU x (List.mem_cons_of_mem _ (h1.mem_iff.1 hx))) h2
    exact ⟨r', by rw [insSort, e, ok_bind, e'], h1'.trans (List.Perm.cons a h1), h2'⟩

/-- The string as a zero terminated block. -/
def cString (s : List Nat) : Mem Nat := ⟨s.length + 1, fun i => s.getD i 0⟩

theorem cString_holds (s : List Nat) : HoldsString (cString s) s := by
  refine ⟨⟨Nat.le_refl _, fun i h => ?_⟩, ?_⟩
  · simp only [cString]; rw [getD_lt h]
  · simp [cString]

/-- "banana" -/
def banana : List Nat := [98, 97, 110, 97, 110, 97]

/-- Heap contents without any zero byte, a heap of 40 MB: the hypotheses of the theorems of this file and of `PropsFront` are met by
"banana" with this memory. -/
theorem banana_good : GoodCall ⟨fun i => 2 * i + 1, 40000000⟩ insSort (cString banana) banana :=
  ⟨by decide, by decide, by decide, cString_holds _, insSort_ok, lengthsSafe_short _ (by decide), by decide⟩

/-- a block larger than the string, with other bytes behind the terminator -/
example : GoodCall ⟨fun _ => 255, 40000000⟩ insSort ⟨20, fun i => if i < 10 then i % 4 else if i = 10 then 0 else 77⟩
    [0, 1, 2, 3, 0, 1, 2, 3, 0, 1] :=
  ⟨by decide, by decide, by decide, ⟨⟨by decide, by decide⟩, by decide⟩, insSort_ok, lengthsSafe_short _ (by decide), by decide⟩

/-- a terminator that is not 0: "banana" followed by "A" -/
theorem bananaA_good : GoodCall ⟨fun i => 2 * i + 1, 40000000⟩ insSort ⟨7, fun i => (banana ++ [65]).getD i 0⟩ banana :=
  ⟨by decide, by decide, by decide, ⟨⟨by decide, by decide⟩, by decide⟩, insSort_ok, lengthsSafe_short _ (by decide), by decide⟩

/-- Long strings: a string of any length of at least 255 is accepted when fresh memory is zero. -/
example (k : Nat) (h : k + 255 < 2 ^ 57) : GoodCall ⟨fun _ => 0, 2 ^ 62⟩ insSort (cString (List.replicate (k + 255) 65))
    (List.replicate (k + 255) 65) :=
  ⟨by simp, by simpa using h, by simp, cString_holds _, insSort_ok, Or.inl (fun _ => rfl),
    by simp only [List.length_replicate, enoughFor]; have : (2 : Nat) ^ 57 * 32 = 2 ^ 62 := by norm_num
       omega⟩

/-! ## The theorems -/

section
variable {T : Mem Nat} {s : List Nat}

theorem bwtString_good (w : World) (g : GoodCall w.junk w.sorter T s) (freeT : Bool) :
    ∃ r, bwtString w (some T) s.length freeT = .ok (some r, release freeT T) ∧ r.bwt.size = s.length + 1 ∧
      IsBWT s r.bwt.data r.last := by
  obtain ⟨⟨o, T'⟩, e, ⟨r, h1, h2⟩, h3⟩ := Tot_iff.1 (bwtIs_spec w g.inp g.min g.len g.sort freeT)
  simp only at h1 h3
  subst h1; subst h3
  refine ⟨r, ?_, h2.1, isBWT_of_rows g.mem h2⟩
  have := g.len3
  simp only [bwtString]
  rw [if_neg (by omega), e]

/-- **C01** `bwt_string` returns the transform: it ends normally with an array of `n+1` entries, and in every row other
than `last` the byte before the suffix of that row. -/
theorem C01_bwt_string_correct (w : World) (g : GoodCall w.junk w.sorter T s) (freeT : Bool) :
    ∃ r T', bwtString w (some T) s.length freeT = .ok (some r, T') ∧ r.bwt.size = s.length + 1 ∧
      IsBWT s r.bwt.data r.last := by
  obtain ⟨r, e, h⟩ := bwtString_good w g freeT
  exact ⟨r, _, e, h⟩

/-- **C02** `last` is the rank of the whole string among the `n+1` suffixes, and lies in `1 … n`. -/
theorem C02_last_is_rank (w : World) (g : GoodCall w.junk w.sorter T s) (freeT : Bool) :
    ∃ r T', bwtString w (some T) s.length freeT = .ok (some r, T') ∧
      r.last = countBelow (s.length + 1) (fun i => decide (s.drop i < s)) ∧ 1 ≤ r.last ∧ r.last ≤ s.length := by
  obtain ⟨r, e, _, h⟩ := bwtString_good w g freeT
  have h3 := g.len3
  refine ⟨r, _, e, h.last_eq, h.last_pos (by rintro rfl; simp at h3), ?_⟩
  have := h.last_lt; omega

/-- **C04** (violated) the calls on one or two bytes dereference the null hash table pointer: whatever the block holds and
whatever memory contains. -/
theorem C04_short_input_null_deref (w : World) (T : Mem Nat) (n : Nat) (freeT : Bool) (h1 : 1 ≤ n) (h2 : n ≤ 2) :
    bwtString w (some T) n freeT = .error (.ub .nullDeref) := by
  have e : extractLMS w.junk T n = .ok (Container.new n) := by
    unfold extractLMS
    rw [if_pos h2]
  have e2 : sortLMS w.sorter w.pj w.junk T (Container.new n) = .error (.ub .nullDeref) := rfl
  simp only [bwtString]
  rw [if_neg (by omega), bwtIs, e, ok_bind, e2]
  rfl

example (w : World) : bwtString w (some (cString [97, 98])) 2 false = .error (.ub .nullDeref) :=
  C04_short_input_null_deref w _ 2 false (by decide) (by decide)

/-- **C05** two calls on the same string, in any two states of memory and with any two implementations of `std::sort`, give
the same `last` and the same bytes in all other rows. -/
theorem C05_independent_of_memory (w w' : World) {T' : Mem Nat} (g : GoodCall w.junk w.sorter T s)
    (g' : GoodCall w'.junk w'.sorter T' s) (freeT freeT' : Bool) :
    ∃ r r' o o', bwtString w (some T) s.length freeT = .ok (some r, o) ∧
      bwtString w' (some T') s.length freeT' = .ok (some r', o') ∧ r.last = r'.last ∧
      ∀ i, i ≤ s.length → i ≠ r.last → r.bwt.data i = r'.bwt.data i := by
  obtain ⟨r, e, _, h⟩ := bwtString_good w g freeT
  obtain ⟨r', e', _, h'⟩ := bwtString_good w' g' freeT'
  have := h.unique h'
  exact ⟨r, r', _, _, e, e', this.1, this.2⟩

/-- **C06** for every call, also the failing ones: `free_T` changes nothing but the fate of the block, which is either
returned as it was or released. -/
theorem C06_free_T_irrelevant (w : World) (T : Option (Mem Nat)) (n : Nat) :
    (∀ r o, bwtString w T n false = .ok (r, o) → o = T ∧ bwtString w T n true = .ok (r, none)) ∧
    (∀ r o, bwtString w T n true = .ok (r, o) → o = none ∧ bwtString w T n false = .ok (r, T)) ∧
    (∀ e, bwtString w T n false = .error e ↔ bwtString w T n true = .error e) := by
  cases T with
  | none => simp [bwtString]
  | some T =>
    by_cases hn : n = 0
    · simp [bwtString, hn]
    · simp only [bwtString, if_neg hn, bwtIs]
      cases extractLMS w.junk T n with
      | error e => simp [bind, Except.bind]
      | ok ct =>
        simp only [ok_bind]
        cases sortLMS w.sorter w.pj w.junk T ct with
        | error e => simp [bind, Except.bind]
        | ok x =>
          simp only [ok_bind]
          cases createShortened w.tj w.sj T n x.2 with
          | error e => simp [bind, Except.bind]
          | ok T1 =>
            simp only [ok_bind]
            cases finish w x.1 T1 x.2 with
            | error e => simp [bind, Except.bind]
            | ok b =>
              simp only [ok_bind, release]
              refine ⟨?_, ?_, ?_⟩
              · intro r o h; cases h; exact ⟨rfl, rfl⟩
              · intro r o h; cases h; exact ⟨rfl, rfl⟩
              · intro e; constructor <;> intro h <;> cases h

/-- **C32** the bytes of the rows other than `last` are the bytes of the string. -/
theorem C32_bwt_permutation (w : World) (g : GoodCall w.junk w.sorter T s) (freeT : Bool) :
    ∃ r T', bwtString w (some T) s.length freeT = .ok (some r, T') ∧
      (((List.range (s.length + 1)).filter (fun i => decide (i ≠ r.last))).map r.bwt.data).Perm s := by
  obtain ⟨r, e, _, h⟩ := bwtString_good w g freeT
  exact ⟨r, _, e, h.perm⟩

/-- **C35** no call runs for ever (all loops and recursions of the model are bounded by a fuel whose exhaustion is the fault
`diverge`): neither a good call nor a call with a null pointer, length 0, 1 or 2. -/
theorem C35_terminates (w : World) (T : Option (Mem Nat)) (n : Nat) (freeT : Bool)
    (h : T = none ∨ n ≤ 2 ∨ ∃ T' s, T = some T' ∧ n = s.length ∧ GoodCall w.junk w.sorter T' s) :
    bwtString w T n freeT ≠ .error (.ub .diverge) := by
  cases T with
  | none => simp [bwtString]
  | some T =>
    rcases h with h | h | ⟨T', s, h1, h2, g⟩
    · cases h
    · by_cases hn : n = 0
      · simp [bwtString, hn]
      · rw [C04_short_input_null_deref w T n freeT (by omega) h]; simp
    · cases h1; subst h2
      obtain ⟨r, e, _⟩ := bwtString_good w g freeT
      rw [e]; simp

end

end Flbwt
