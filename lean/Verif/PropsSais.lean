import Verif.SaisMain
import Verif.Spec

/-!
# Properties C24 – C28 (suffix sorting)
-/

namespace Flbwt

open SaStore LawfulSaStore

variable {S : Type} [LawfulSaStore S]

theorem sfx_eq_drop (T : Nat → Nat) (n p : Nat) : ((List.range n).map T).drop p = sfx T n p := by
  rw [sfx, ← List.map_drop, List.range_eq_range', List.drop_range']
  simp

/-- a filled suffix array in the sense of the specification -/
theorem isSuffixArray_of_srank {T : Nat → Nat} {n : Nat} {A : Nat → Int} (h : ∀ p, p < n → A (srank T n p) = p) :
    IsSuffixArray ((List.range n).map T) ((List.range n).map fun i => (A i).toNat) := by
  have hs : ∀ x, x < n → ∃ p, p < n ∧ srank T n p = x :=
    inj_surj (srank T n) (fun q hq => srank_lt hq) (fun a ha b hb h => srank_inj ha hb h)
  have hv : ∀ x, x < n → ∃ p, p < n ∧ srank T n p = x ∧ (A x).toNat = p := by
    intro x hx
    obtain ⟨p, hp, hpx⟩ := hs x hx
    exact ⟨p, hp, hpx, by rw [← hpx, h p hp]; simp⟩
  have hpw : ((List.range n).map fun i => (A i).toNat).Pairwise
      (fun i j => ((List.range n).map T).drop i < ((List.range n).map T).drop j) := by
    rw [List.pairwise_map]
    refine List.Pairwise.imp_of_mem ?_ (List.pairwise_lt_range (n := n))
    intro a b ha hb hab
    obtain ⟨p, hp, hpa, hpv⟩ := hv a (List.mem_range.1 ha)
    obtain ⟨q, hq, hqb, hqv⟩ := hv b (List.mem_range.1 hb)
    rw [hpv, hqv, sfx_eq_drop, sfx_eq_drop]
    exact (srank_lt_iff hp).1 (by omega)
  refine ⟨?_, hpw⟩
  have hnd : ((List.range n).map fun i => (A i).toNat).Nodup :=
    hpw.imp (fun {a b} hab heq => by subst heq; exact absurd hab (List.lt_irrefl _))
  rw [List.perm_ext_iff_of_nodup hnd List.nodup_range]
  intro x
  simp only [List.mem_map, List.mem_range, List.length_map, List.length_range]
  constructor
  · rintro ⟨i, hi, rfl⟩
    obtain ⟨p, hp, _, hpv⟩ := hv i hi
    omega
  · intro hx
    exact ⟨srank T n x, srank_lt hx, by rw [h x hx]; simp⟩

/-- the packed array holds the string: entry `i + 1` is character `i` (`get_value` results) -/
def HoldsText (sj : BitVec 64) (pa : PackedArray) (text : List Nat) : Prop :=
  ∀ (i : Nat) (h : i < text.length), ∃ v, pa.getValue sj (i + 1) = .ok v ∧ v.toNat = text[i]

/-- The call `sais_XXbit(T, SA, fs, n, k, cs)` on a packed text; `fuel` bounds the recursion depth. -/
def saisCall (junk : Nat → Nat → BitVec 64) (sj : BitVec 64) (pa : PackedArray) (sa : S) (fs n k : Nat) (fuel : Nat) :
    M (St S) :=
  sais junk fuel { txt := .packed pa.arr, cs := pa.bits, sj := sj } fs n k ⟨sa, fresh 0 (fun _ => 0)⟩

/-- the entries `SA[0..n)` read as natural numbers -/
def saList (s : St S) (n : Nat) : List Nat := (List.range n).map fun i => (get s.sa i).toNat

theorem saisCall_tot (junk : Nat → Nat → BitVec 64) (sj : BitVec 64) (pa : PackedArray) (sa : S) (fs k fuel : Nat)
    (text : List Nat) (hcs : pa.bits ≠ width S) (htext : HoldsText sj pa text) (hn : text ≠ [])
    (hnw : text.length < 2 ^ (width S - 1)) (hkw : k ≤ 2 ^ (width S - 1)) (hT : ∀ c ∈ text, c < k)
    (hsz : text.length + fs ≤ size sa) (hfuel : text.length < 2 ^ fuel) :
    Tot (saisCall junk sj pa sa fs text.length k fuel) (fun s' => size s'.sa = size sa ∧
      (∀ x, text.length + fs ≤ x → get s'.sa x = get sa x) ∧ (∀ i, i < text.length → 0 ≤ get s'.sa i) ∧
      IsSuffixArray text (saList s' text.length)) := by
  have hn1 : 1 ≤ text.length := by cases text; · exact absurd rfl hn
                                   · simp
  have ht : (List.range text.length).map (fun i => text.getD i 0) = text := by
    apply List.ext_getElem
    · simp
    · intro i h1 h2; simp [h2]
  have h := sais_spec (S := S) junk fuel { txt := .packed pa.arr, cs := pa.bits, sj := sj } fs text.length k
    ⟨sa, fresh 0 (fun _ => 0)⟩ (fun i => text.getD i 0) hn1 (by exact_mod_cast hnw) (by exact_mod_cast hkw)
    (fun i hi => hT _ (by simp [hi]))
    ⟨hcs, fun i hi => by
      obtain ⟨v, h1, h2⟩ := htext i hi
      exact ⟨v, h1, by simp [h2, hi]⟩⟩ hsz hfuel
  refine h.mono ?_
  rintro s' ⟨A, h1, h2⟩
  refine ⟨h1.sz, h1.frame, fun i hi => ?_, ?_⟩
  · obtain ⟨p, hp, hpi⟩ := inj_surj (srank (fun i => text.getD i 0) text.length) (fun q hq => srank_lt hq)
      (fun a ha b hb h => srank_inj ha hb h) i hi
    rw [h1.a i hi, ← hpi, h2 p hp]; omega
  · have h3 := isSuffixArray_of_srank h2
    have : ((List.range text.length).map fun i => (A i).toNat) = saList s' text.length :=
      List.map_congr_left (fun i hi => by rw [h1.a i (List.mem_range.1 hi)])
    rw [← this]
    rw [ht] at h3; exact h3

/-- C24: `sais_32bit` computes the suffix array: for every non-empty string over `0 … k-1` (`n < 2^31`, `k ≤ 2^31`) held
in a packed array whose width is not 32, every workspace size `fs`, every initial contents of all memory involved. -/
theorem C24_sais32_suffix_array (junk : Nat → Nat → BitVec 64) (sj : BitVec 64) (pa : PackedArray) (sa : S32)
    (fs k : Nat) (text : List Nat) (hcs : pa.bits ≠ 32) (htext : HoldsText sj pa text) (hn : text ≠ [])
    (hnw : text.length < 2 ^ 31) (hkw : k ≤ 2 ^ 31) (hT : ∀ c ∈ text, c < k) (hsz : text.length + fs ≤ size sa) :
    ∃ s', saisCall junk sj pa sa fs text.length k 31 = .ok s' ∧ (∀ i, i < text.length → 0 ≤ get s'.sa i) ∧
      IsSuffixArray text (saList s' text.length) := by
  obtain ⟨s', e, h⟩ := Tot_iff.1 (saisCall_tot junk sj pa sa fs k 31 text hcs htext hn hnw hkw hT hsz hnw)
  exact ⟨s', e, h.2.2⟩

/-- A suffix array is unique. -/
theorem isSuffixArray_unique {s a b : List Nat} (ha : IsSuffixArray s a) (hb : IsSuffixArray s b) : a = b := by
  refine List.Perm.eq_of_pairwise (le := fun i j => s.drop i < s.drop j) ?_ ha.2 hb.2 (ha.1.trans hb.1.symm)
  intro i j _ _ h1 h2
  exact absurd (List.lt_trans h1 h2) (List.lt_irrefl _)

/-- C25: the 40, 48, 56 and 64 bit versions compute the suffix array for all strings that fit, and all five versions
agree on the strings they share. -/
theorem C25_sais_all_widths (junk : Nat → Nat → BitVec 64) (sj : BitVec 64) (pa : PackedArray)
    (fs k : Nat) (text : List Nat) (htext : HoldsText sj pa text) (hn : text ≠ []) (hT : ∀ c ∈ text, c < k) :
    (∀ sa : S40, pa.bits ≠ 40 → text.length < 2 ^ 39 → k ≤ 2 ^ 39 → text.length + fs ≤ size sa →
      ∃ s', saisCall junk sj pa sa fs text.length k 39 = .ok s' ∧ IsSuffixArray text (saList s' text.length)) ∧
    (∀ sa : S48, pa.bits ≠ 48 → text.length < 2 ^ 47 → k ≤ 2 ^ 47 → text.length + fs ≤ size sa →
      ∃ s', saisCall junk sj pa sa fs text.length k 47 = .ok s' ∧ IsSuffixArray text (saList s' text.length)) ∧
    (∀ sa : S56, pa.bits ≠ 56 → text.length < 2 ^ 55 → k ≤ 2 ^ 55 → text.length + fs ≤ size sa →
      ∃ s', saisCall junk sj pa sa fs text.length k 55 = .ok s' ∧ IsSuffixArray text (saList s' text.length)) ∧
    (∀ sa : S64, pa.bits ≠ 64 → text.length < 2 ^ 63 → k ≤ 2 ^ 63 → text.length + fs ≤ size sa →
      ∃ s', saisCall junk sj pa sa fs text.length k 63 = .ok s' ∧ IsSuffixArray text (saList s' text.length)) := by
  refine ⟨?_, ?_, ?_, ?_⟩
  · intro sa hcs hnw hkw hsz
    obtain ⟨s', e, h⟩ := Tot_iff.1 (saisCall_tot junk sj pa sa fs k 39 text hcs htext hn hnw hkw hT hsz hnw)
    exact ⟨s', e, h.2.2.2⟩
  · intro sa hcs hnw hkw hsz
    obtain ⟨s', e, h⟩ := Tot_iff.1 (saisCall_tot junk sj pa sa fs k 47 text hcs htext hn hnw hkw hT hsz hnw)
    exact ⟨s', e, h.2.2.2⟩
  · intro sa hcs hnw hkw hsz
    obtain ⟨s', e, h⟩ := Tot_iff.1 (saisCall_tot junk sj pa sa fs k 55 text hcs htext hn hnw hkw hT hsz hnw)
    exact ⟨s', e, h.2.2.2⟩
  · intro sa hcs hnw hkw hsz
    obtain ⟨s', e, h⟩ := Tot_iff.1 (saisCall_tot junk sj pa sa fs k 63 text hcs htext hn hnw hkw hT hsz hnw)
    exact ⟨s', e, h.2.2.2⟩

/-- C25 (agreement): any two versions leave the same entries, whatever junk, workspace and buffers they are given. -/
theorem C25_sais_agree {S S' : Type} [LawfulSaStore S] [LawfulSaStore S'] (junk junk' : Nat → Nat → BitVec 64)
    (sj : BitVec 64) (pa : PackedArray) (sa : S) (sa' : S') (fs fs' k fuel fuel' : Nat) (text : List Nat)
    (htext : HoldsText sj pa text) (hn : text ≠ []) (hT : ∀ c ∈ text, c < k)
    (hcs : pa.bits ≠ width S) (hcs' : pa.bits ≠ width S')
    (hnw : text.length < 2 ^ (width S - 1)) (hnw' : text.length < 2 ^ (width S' - 1))
    (hkw : k ≤ 2 ^ (width S - 1)) (hkw' : k ≤ 2 ^ (width S' - 1))
    (hsz : text.length + fs ≤ size sa) (hsz' : text.length + fs' ≤ size sa')
    (hf : text.length < 2 ^ fuel) (hf' : text.length < 2 ^ fuel') :
    ∃ s s', saisCall junk sj pa sa fs text.length k fuel = .ok s ∧ saisCall junk' sj pa sa' fs' text.length k fuel' = .ok s' ∧
      ∀ i, i < text.length → get s.sa i = get s'.sa i := by
  obtain ⟨s, e, _, _, h0, h⟩ := Tot_iff.1 (saisCall_tot junk sj pa sa fs k fuel text hcs htext hn hnw hkw hT hsz hf)
  obtain ⟨s', e', _, _, h0', h'⟩ := Tot_iff.1 (saisCall_tot junk' sj pa sa' fs' k fuel' text hcs' htext hn hnw' hkw' hT hsz' hf')
  refine ⟨s, s', e, e', fun i hi => ?_⟩
  have heq := isSuffixArray_unique h h'
  have h1 := h0 i hi
  have h2 := h0' i hi
  have : (get s.sa i).toNat = (get s'.sa i).toNat := by
    have := congrArg (fun l => l[i]?) heq
    simpa [saList, hi] using this
  omega

/-- C26: `get_40bit_value(set_40bit_value(v)) = v` for every value of the signed range, likewise 48 and 56 bits; all
other entries keep their value. -/
theorem C26_split_integers (i : Nat) (v : Int) :
    (∀ s : S40, -2 ^ 39 ≤ v → v < 2 ^ 39 → (get40 (set40 s i v) i).toInt = v ∧
      ∀ j, j ≠ i → get40 (set40 s i v) j = get40 s j) ∧
    (∀ s : S48, -2 ^ 47 ≤ v → v < 2 ^ 47 → (get48 (set48 s i v) i).toInt = v ∧
      ∀ j, j ≠ i → get48 (set48 s i v) j = get48 s j) ∧
    (∀ s : S56, -2 ^ 55 ≤ v → v < 2 ^ 55 → (get56 (set56 s i v) i).toInt = v ∧
      ∀ j, j ≠ i → get56 (set56 s i v) j = get56 s j) := by
  refine ⟨fun s h1 h2 => ?_, fun s h1 h2 => ?_, fun s h1 h2 => ?_⟩
  · refine ⟨?_, fun j hj => ?_⟩
    · have := get_put (S := S40) s i i v h1 h2
      rwa [if_pos rfl] at this
    · simp only [get40, set40, Mem.upd_data_ne _ _ hj]
  · refine ⟨?_, fun j hj => ?_⟩
    · have := get_put (S := S48) s i i v h1 h2
      rwa [if_pos rfl] at this
    · simp only [get48, set48, Mem.upd_data_ne _ _ hj]
  · refine ⟨?_, fun j hj => ?_⟩
    · have := get_put (S := S56) s i i v h1 h2
      rwa [if_pos rfl] at this
    · simp only [get56, set56, Mem.upd_data_ne _ _ hj]

example : (get40 (set40 ⟨⟨1, fun _ => 7⟩, ⟨1, fun _ => 9⟩⟩ 0 (-549755813888)) 0).toInt = -549755813888 := by decide

/-- C27: with a buffer of exactly `n + fs` entries no access leaves it (every access in the model is checked, so an
access outside would be a fault); with a larger buffer everything from `SA[n+fs]` on is unchanged. The text is read only
(it is not part of the state). All five widths. -/
theorem C27_sais_stays_inside {S : Type} [LawfulSaStore S] (junk : Nat → Nat → BitVec 64) (sj : BitVec 64)
    (pa : PackedArray) (sa : S) (fs k fuel : Nat) (text : List Nat) (htext : HoldsText sj pa text) (hn : text ≠ [])
    (hT : ∀ c ∈ text, c < k) (hcs : pa.bits ≠ width S) (hnw : text.length < 2 ^ (width S - 1))
    (hkw : k ≤ 2 ^ (width S - 1)) (hf : text.length < 2 ^ fuel) :
    (size sa = text.length + fs → ∃ s', saisCall junk sj pa sa fs text.length k fuel = .ok s') ∧
    (text.length + fs ≤ size sa → ∃ s', saisCall junk sj pa sa fs text.length k fuel = .ok s' ∧ size s'.sa = size sa ∧
      ∀ x, text.length + fs ≤ x → get s'.sa x = get sa x) := by
  have h := fun hsz => Tot_iff.1 (saisCall_tot junk sj pa sa fs k fuel text hcs htext hn hnw hkw hT hsz hf)
  refine ⟨fun hs => ?_, fun hs => ?_⟩
  · obtain ⟨s', e, _⟩ := h (by omega)
    exact ⟨s', e⟩
  · obtain ⟨s', e, h1, h2, _⟩ := h hs
    exact ⟨s', e, h1, h2⟩

/-- C28: recursion depth: `⌊log2 n⌋ + 1` levels are always enough (all loops of the model are bounded by their counters,
running out of the recursion budget would be the fault `diverge`). All five widths. -/
theorem C28_sais_terminates {S : Type} [LawfulSaStore S] (junk : Nat → Nat → BitVec 64) (sj : BitVec 64)
    (pa : PackedArray) (sa : S) (fs k : Nat) (text : List Nat) (htext : HoldsText sj pa text) (hn : text ≠ [])
    (hT : ∀ c ∈ text, c < k) (hcs : pa.bits ≠ width S) (hnw : text.length < 2 ^ (width S - 1))
    (hkw : k ≤ 2 ^ (width S - 1)) (hsz : text.length + fs ≤ size sa) :
    ∃ s', saisCall junk sj pa sa fs text.length k (Nat.log2 text.length + 1) = .ok s' := by
  obtain ⟨s', e, _⟩ := Tot_iff.1 (saisCall_tot junk sj pa sa fs k (Nat.log2 text.length + 1) text hcs htext hn hnw hkw hT hsz
    Nat.lt_log2_self)
  exact ⟨s', e⟩

/-! ## The hypotheses are met by a concrete string ("2 1 2 1 0" in a packed array of width 3) -/

/-- entries `5 2 1 2 1 0` of width 3 -/
def demoPacked : PackedArray := ⟨⟨1, fun _ => 0b101010001010001000#64 <<< 46⟩, 6, 3⟩

theorem demo_holds : HoldsText 0 demoPacked [2, 1, 2, 1, 0] := by
  intro i h
  match i, h with
  | 0, _ => exact ⟨2, rfl, rfl⟩
  | 1, _ => exact ⟨1, rfl, rfl⟩
  | 2, _ => exact ⟨2, rfl, rfl⟩
  | 3, _ => exact ⟨1, rfl, rfl⟩
  | 4, _ => exact ⟨0, rfl, rfl⟩

example : ∃ s', saisCall (fun _ _ => 5) 0 demoPacked (⟨⟨5, fun _ => 77⟩⟩ : S32) 0 5 3 31 = .ok s' ∧
    (∀ i, i < 5 → 0 ≤ get s'.sa i) ∧ IsSuffixArray [2, 1, 2, 1, 0] (saList s' 5) :=
  C24_sais32_suffix_array _ 0 demoPacked _ 0 3 [2, 1, 2, 1, 0] (by decide) demo_holds (by decide) (by decide) (by decide)
    (by decide) (by decide)

example : ∃ s', saisCall (fun _ _ => 5) 0 demoPacked (⟨⟨5, fun _ => 77⟩⟩ : S64) 0 5 3 63 = .ok s' ∧
    IsSuffixArray [2, 1, 2, 1, 0] (saList s' 5) :=
  (C25_sais_all_widths _ 0 demoPacked 0 3 [2, 1, 2, 1, 0] demo_holds (by decide) (by decide)).2.2.2 _ (by decide) (by decide)
    (by decide) (by decide)

example : IsSuffixArray [2, 1, 2, 1, 0] [4, 3, 1, 2, 0] := by
  refine ⟨by decide, by decide⟩

end Flbwt
