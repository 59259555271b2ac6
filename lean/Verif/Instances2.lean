import Verif.PropsTable
import Verif.PropsSpace
import Verif.PropsSaisInt

/-!
# Instances: the theorems about the hash table and the suffix sorters applied to concrete calls
-/

namespace Flbwt

open HashTable SaStore

/-! ## The table -/

/-- a history with collisions (one slot), a duplicate and failing searches -/
abbrev someOps : List HOp := [.insert [1, 2, 3], .insert [3, 2, 1], .find [9], .insert [1, 2, 3], .find [3, 2, 1]]

theorem someOps_ok : ∀ op ∈ someOps, op.okFor ⟨fun _ => 7, 3000⟩ := by
  intro op hop
  simp only [someOps, List.mem_cons, List.not_mem_nil, or_false] at hop
  rcases hop with rfl | rfl | rfl | rfl | rfl <;> simp [HOp.okFor]

/-- C17 -/
example : Tot (do let ht ← HashTable.new 1 20; HOp.execs ⟨fun _ => 7, 3000⟩ ht someOps)
    (fun r => r.2 = [.status 1, .status 1, .notFound, .status 0, .found]) :=
  C17_table_memory_safe 1 20 (by decide) (by decide) ⟨fun _ => 7, 3000⟩ someOps someOps_ok (by decide)

/-- C44 -/
example : Tot (do let ht ← HashTable.new 1 20; HOp.execs ⟨fun _ => 7, 3000⟩ ht someOps) (fun r => r.1.buf.size ≤ 700) :=
  (C44_table_space 1 20 (by decide) (by decide) ⟨fun _ => 7, 3000⟩ someOps someOps_ok (by decide)).mono
    (fun r h => Nat.le_trans h (by decide))

/-- three strings, one of them twice -/
abbrev someStrings : List (List Nat) := [[1, 2, 3], [4, 5, 6, 7], [1, 2, 3]]

theorem someStrings_ok : ∀ s ∈ someStrings, 3 ≤ s.length ∧ (s.length % 256 ≠ 0 ∨ ∀ i, (⟨fun _ => 255, 3000⟩ : Fresh) i % 256 = 0) := by
  intro s hs
  simp only [someStrings, List.mem_cons, List.not_mem_nil, or_false] at hs
  rcases hs with rfl | rfl | rfl <;> simp

/-- C15: new, new, old -/
example : Tot (do let ht ← HashTable.new 1 20; HOp.execs ⟨fun _ => 255, 3000⟩ ht (someStrings.map .insert))
    (fun r => r.2 = [.status 1, .status 1, .status 0]) := by
  refine (C15_insert_reports_new 1 20 (by decide) (by decide) ⟨fun _ => 255, 3000⟩ someStrings someStrings_ok (by decide)).mono ?_
  rintro r ⟨h1, h2⟩
  have e0 := h2 0 (by decide)
  have e1 := h2 1 (by decide)
  have e2 := h2 2 (by decide)
  obtain ⟨_, l⟩ := r
  match l, h1 with
  | [a, b, c], _ =>
    simp only [List.getElem?_cons_zero, List.getElem?_cons_succ, Option.some.injEq] at e0 e1 e2
    simp only
    rw [e0, e1, e2]
    decide

/-- C16: the strings get the names 5 and 7, found again; a string that was not inserted is not found -/
example : Tot (do
      let ht ← HashTable.new 1 20
      let ht ← insertAll ⟨fun _ => 255, 3000⟩ ht someStrings
      let r ← collect ht ⟨3, fun _ => 0⟩ 0
      let strs ← (List.range r.2).mapM fun k => do
        let q ← r.1.rd k
        readString ht.buf q
      .ok (ht, r.1, strs)) (fun r => r.2.2.length = 2 ∧
        Tot (setNames r.1 r.2.1 [(0, 5), (1, 7)]) (fun ht' => ∀ s ∈ r.2.2,
          (findName ht' (ofList [9, 9, 9]) 3 0 = .error (.throw .runtimeError)) ∧
          (findName ht' (ofList s) s.length 0 = .ok 5 ∨ findName ht' (ofList s) s.length 0 = .ok 7))) := by
  refine (C16_find_name 1 20 (by decide) (by decide) ⟨fun _ => 255, 3000⟩ someStrings someStrings_ok (by decide) ⟨3, fun _ => 0⟩ (by decide)).mono ?_
  rintro ⟨ht, ptrs, strs⟩ ⟨hnd, hmem, h⟩
  have hl : strs.length = 2 := by
    have : strs.Perm [[1, 2, 3], [4, 5, 6, 7]] := (List.perm_ext_iff_of_nodup hnd (by decide)).2 (fun s => by
      rw [hmem]; simp only [someStrings, List.mem_cons, List.not_mem_nil, or_false]; tauto)
    exact this.length_eq
  refine ⟨hl, (h [(0, 5), (1, 7)] (by
    intro op hop
    simp only [List.mem_cons, List.not_mem_nil, or_false] at hop
    rcases hop with rfl | rfl <;> simp [hl])).mono ?_⟩
  intro ht' hf s hs
  refine ⟨(hf [9, 9, 9]).1 (by decide), ?_⟩
  obtain ⟨k, hk, e⟩ := List.mem_iff_getElem.1 hs
  simp only at hk e
  have hk2 : k = 0 ∨ k = 1 := by omega
  have e' : strs[k]? = some s := by rw [List.getElem?_eq_getElem hk, e]
  rcases hk2 with rfl | rfl
  · exact Or.inl ((hf s).2 0 5 e' (by decide))
  · exact Or.inr ((hf s).2 1 7 e' (by decide))

/-- C18: 70000 is read back; 256 is not when old bytes are 255 -/
example : Tot (setLength ⟨20, fun _ => 77⟩ 3 70000) (fun buf' => getLength buf' 3 = .ok 70000 ∧ buf'.size = 20 ∧
    ∀ i, (i < 3 ∨ 3 + 9 ≤ i) → buf'.data i = 77) :=
  C18_length_round_trip ⟨20, fun _ => 77⟩ 3 70000 (by decide) (by decide) (by decide) (Or.inl (by decide))
example : Tot (setLength ⟨20, fun _ => 255⟩ 3 256) (fun buf' => ∃ l', getLength buf' 3 = .ok l' ∧ 256 < l') :=
  C18_length_round_trip_fails 20 3 256 (by decide) (by decide) (by decide) (by decide)

/-- C19: a pointer, and a name of two bytes behind a string of three -/
example : Tot (setPointer ⟨20, fun _ => 77⟩ 3 123456789) (fun buf' => getPointer buf' 3 = .ok 123456789 ∧ getLength buf' 3 = .ok 2 ∧
    buf'.size = 20 ∧ ∀ i, (i < 3 ∨ 3 + 10 ≤ i) → buf'.data i = 77) :=
  (C19_pointer_and_name_round_trip ⟨20, fun _ => 77⟩ 3 123456789 2).1 (by decide) (by decide)
example : Tot (setName 2 ⟨16, fun i => if i = 2 then 1 else if i = 3 then 3 else 0⟩ 2 0xdead) (fun buf' => getName 2 buf' 2 = .ok 0xdead) :=
  ((C19_pointer_and_name_round_trip ⟨16, fun i => if i = 2 then 1 else if i = 3 then 3 else 0⟩ 2 0xdead 2).2 3 (by decide) (by decide)
    (by decide) (by decide)).mono (fun _ h => h.1)

/-- C31 -/
example : hashFunction 100 (ofList [1, 2, 3]) 3 0 = .ok ((1 * 101 ^ 2 + 2 * 101 + 3) % 100) :=
  (C31_hash_function 100 (ofList [1, 2, 3]) 3 0 (by decide) (by decide)).1

/-- C72, C73: a history with names -/
abbrev someCalls : List TOp := [.insert [1, 2, 3], .name [1, 2, 3] 5, .insert [3, 2, 1], .name [3, 2, 1] 6, .find [1, 2, 3],
  .name [1, 2, 3] 11, .insert [1, 2, 3], .find [1, 2, 3], .find [9]]

theorem someCalls_ok : ∀ op ∈ someCalls, op.okFor ⟨fun _ => 255, 1599⟩ 20 := by
  intro op hop
  simp only [someCalls, List.mem_cons, List.not_mem_nil, or_false] at hop
  rcases hop with rfl | rfl | rfl | rfl | rfl | rfl | rfl | rfl | rfl <;> simp [TOp.okFor]

example : Tot (do let ht ← HashTable.new 1 20; TOp.execs ⟨fun _ => 255, 1599⟩ ⟨4, fun _ => 1⟩ ht someCalls) (fun r =>
    r.2 = [.status 1, .done, .status 1, .done, .found 5, .done, .status 0, .found 11, .notFound]) := by
  refine (C72_table_is_a_map 1 20 (by decide) (by decide) ⟨fun _ => 255, 1599⟩ ⟨4, fun _ => 1⟩ someCalls someCalls_ok (by decide)
    (by decide)).mono ?_
  rintro ⟨ht, outs⟩ h
  obtain ⟨_, rfl, _, rfl, _, rfl, _, rfl, o1, _, rfl, h1, _, rfl, _, rfl, o2, _, rfl, h2, o3, _, rfl, h3, rfl⟩ := h
  simp at h1 h2 h3
  subst h1 h2 h3
  simp

example : Tot (do
      let ht ← HashTable.new 1 20
      let r ← TOp.execs ⟨fun _ => 255, 1599⟩ ⟨4, fun _ => 1⟩ ht someCalls
      let w ← collect r.1 ⟨4, fun _ => 1⟩ 0
      .ok (r.1, w)) (fun r => r.2.2 = 2 ∧ ∃ b, DocRecord r.1.buf (r.2.1.data 0) b [1, 2, 3] ∨ DocRecord r.1.buf (r.2.1.data 0) b [3, 2, 1]) := by
  refine (C73_record_layout 1 20 (by decide) (by decide) ⟨fun _ => 255, 1599⟩ ⟨4, fun _ => 1⟩ someCalls someCalls_ok (by decide)
    (by decide)).mono ?_
  rintro ⟨ht, ptrs, cnt⟩ ⟨strs, h1, hnd, hmem, hrec, _⟩
  have hm : ∀ s, s ∈ strs ↔ s = [1, 2, 3] ∨ s = [3, 2, 1] := by
    intro s; rw [hmem]; simp only [someCalls, List.mem_cons, List.not_mem_nil, or_false]
    constructor
    · intro h; rcases h with h | h | h | h | h | h | h | h | h <;> first | (injection h with h; simp [h]) | cases h
    · rintro (rfl | rfl) <;> simp
  have hl : strs.length = 2 := by
    have : strs.Perm [[1, 2, 3], [3, 2, 1]] := (List.perm_ext_iff_of_nodup hnd (by decide)).2 (fun s => by
      rw [hm]; simp only [List.mem_cons, List.not_mem_nil, or_false])
    exact this.length_eq
  obtain ⟨b, hd, _⟩ := hrec 0 (by omega)
  refine ⟨by simp only; omega, b, ?_⟩
  rcases (hm _).1 (List.getElem_mem (show 0 < strs.length by omega)) with h | h
  · rw [h] at hd; exact Or.inl hd
  · rw [h] at hd; exact Or.inr hd

/-- C74 -/
example : Tot (HashTable.new 0 20) (fun ht => insertString ⟨fun _ => 1, 600⟩ ht (ofList [7, 8, 9]) 3 0 = .error (.ub .divByZero) ∧
    findName ht (ofList [7, 8, 9]) 3 0 = .error (.ub .divByZero)) := C74_no_slots 20 (by decide) ⟨fun _ => 1, 600⟩ [7, 8, 9]
example : Tot (do let ht ← HashTable.new 1 20; insertString ⟨fun _ => 1, 600⟩ ht (ofList [7, 8, 9]) 3 0) (fun r => r.2 = 1) :=
  C74_one_slot 20 (by decide) ⟨fun _ => 1, 600⟩ [7, 8, 9] (by decide) (by decide) (by decide)

/-! ## The suffix sorters -/

/-- C25: the 32 bit and the 40 bit sorter -/
example : ∃ s s', saisCall (fun _ _ => 5) 0 demoPacked (⟨⟨5, fun _ => 77⟩⟩ : S32) 0 5 3 31 = .ok s ∧
    saisCall (fun _ _ => 6) 0 demoPacked (⟨⟨7, fun _ => 77⟩, ⟨7, fun _ => 1⟩⟩ : S40) 2 5 3 39 = .ok s' ∧
    ∀ i, i < 5 → get s.sa i = get s'.sa i :=
  C25_sais_agree (S := S32) (S' := S40) (fun _ _ => 5) (fun _ _ => 6) 0 demoPacked _ _ 0 2 3 31 39 [2, 1, 2, 1, 0] demo_holds (by decide) (by decide)
    (by decide) (by decide) (by decide) (by decide) (by decide) (by decide) (by decide) (by decide) (by decide) (by decide)

/-- C26: a negative number in 48 and in 56 bits -/
example (i : Nat) (s : S48) (s' : S56) : (get48 (set48 s i (-5)) i).toInt = -5 ∧ get48 (set48 s i (-5)) (i + 1) = get48 s (i + 1) ∧
    (get56 (set56 s' i (-5)) i).toInt = -5 :=
  ⟨((C26_split_integers i (-5)).2.1 s (by decide) (by decide)).1,
    ((C26_split_integers i (-5)).2.1 s (by decide) (by decide)).2 _ (by omega), ((C26_split_integers i (-5)).2.2 s' (by decide) (by decide)).1⟩

/-- C27: an array of 9 entries of which the last two are not part of the call -/
example : ∃ s', saisCall (fun _ _ => 5) 0 demoPacked (⟨⟨9, fun _ => 77⟩⟩ : S32) 2 5 3 31 = .ok s' ∧ size s'.sa = 9 ∧
    ∀ x, 7 ≤ x → get s'.sa x = get (⟨⟨9, fun _ => 77⟩⟩ : S32) x :=
  (C27_sais_stays_inside (S := S32) (fun _ _ => 5) 0 demoPacked ⟨⟨9, fun _ => 77⟩⟩ 2 3 31 [2, 1, 2, 1, 0] demo_holds (by decide) (by decide)
    (by decide) (by decide) (by decide) (by decide)).2 (by decide)

/-- C28: depth 3 is enough for five letters -/
example : ∃ s', saisCall (fun _ _ => 5) 0 demoPacked (⟨⟨5, fun _ => 77⟩⟩ : S32) 0 5 3 (Nat.log2 5 + 1) = .ok s' :=
  C28_sais_terminates (S := S32) (fun _ _ => 5) 0 demoPacked ⟨⟨5, fun _ => 77⟩⟩ 0 3 [2, 1, 2, 1, 0] demo_holds (by decide) (by decide)
    (by decide) (by decide) (by decide) (by decide)

/-- There is only one suffix array. -/
theorem IsSuffixArray.unique {s a b : List Nat} (ha : IsSuffixArray s a) (hb : IsSuffixArray s b) : a = b := by
  refine List.Perm.eq_of_pairwise (le := fun i j => s.drop i < s.drop j) ?_ ha.2 hb.2 (ha.1.trans hb.1.symm)
  intro i j _ _ h1 h2
  exact absurd (List.lt_trans h1 h2) (List.lt_irrefl _)

/-- C70 -/
example : ∃ s', saisIntCall (fun _ _ => 5) 0 demoInts (⟨⟨7, fun _ => 77⟩⟩ : S32) 2 5 3 31 = .ok s' ∧ saList s' 5 = [4, 3, 1, 2, 0] := by
  obtain ⟨s', e, h, _⟩ := C70_integer_text (S := S32) (fun _ _ => 5) 0 demoInts ⟨⟨7, fun _ => 77⟩⟩ 2 3 31 [2, 1, 2, 1, 0] demoInts_holds (by decide)
    (by decide) (by decide) (by decide) (by decide) (by decide)
  exact ⟨s', e, IsSuffixArray.unique h ⟨by decide, by decide⟩⟩
example : ∃ st c, saisT (fun _ _ => 5) 31 { txt := .ints ⟨size demoInts, getU demoInts⟩, cs := width S32, sj := 0 } 2 5 3
      ⟨(⟨⟨7, fun _ => 77⟩⟩ : S32), fresh 0 (fun _ => 0)⟩ = .ok (st, c) ∧
    saisIntCall (fun _ _ => 5) 0 demoInts (⟨⟨7, fun _ => 77⟩⟩ : S32) 2 5 3 31 = .ok st ∧ c ≤ 316 :=
  C70_linear_time (S := S32) (fun _ _ => 5) 0 demoInts ⟨⟨7, fun _ => 77⟩⟩ 2 3 31 [2, 1, 2, 1, 0] demoInts_holds (by decide)
    (by decide) (by decide) (by decide) (by decide) (by decide)

/-- C71 -/
example (e : Env) (hp : S64) : ∃ u, sais (fun _ _ => 5) (20 + 1) e 0 0 3 ⟨(⟨⟨0, fun _ => 77⟩⟩ : S64), hp⟩ = .error (.ub u) :=
  C71_empty_string (fun _ _ => 5) e _ hp 3 20 rfl

end Flbwt
