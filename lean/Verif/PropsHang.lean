import Verif.Hang
import Verif.PropsDirty3

/-!
# Property C94: a call that does not end

The third consequence of the defect described in C18 (C91: an exception, C92: a wrong result, C93: an access outside the table).
-/

namespace Flbwt

open HashTable (ok_bind nb)

/-- **C94** the number of steps the model gives to the walks over the table does not matter for a call that returns. -/
theorem C94_more_steps (k : Nat) (w : World) (T : Option (Mem Nat)) (n : Nat) (freeT : Bool) {r : Option BwtResult × Option (Mem Nat)}
    (h : bwtString w T n freeT = .ok r) : bwtStringFor k w T n freeT = .ok r := by
  cases T with
  | none => cases h
  | some T =>
    simp only [bwtString] at h
    simp only [bwtStringFor]
    split at h
    · cases h
    · rename_i hn
      rw [if_neg hn]
      unfold bwtIs at h
      obtain ⟨ct, h1, h⟩ := bind_ok_inv h
      obtain ⟨x, h2, h⟩ := bind_ok_inv h
      rw [h1, ok_bind]
      have : sortLMSFor k w.sorter w.pj w.junk T ct = .ok x := by
        unfold sortLMS at h2
        unfold sortLMSFor
        cases hc : ct.hashtable with
        | none => rw [hc] at h2; cases h2
        | some ht =>
          rw [hc] at h2
          simp only at h2 ⊢
          obtain ⟨y, h3, h2⟩ := bind_ok_inv h2
          have : sortNamesFor k w.sorter w.pj w.junk ct ht = .ok y := by
            unfold sortNames at h3
            unfold sortNamesFor
            obtain ⟨ll, h4, h3⟩ := bind_ok_inv h3
            obtain ⟨b, h5, h3⟩ := bind_ok_inv h3
            obtain ⟨c, h6, h3⟩ := bind_ok_inv h3
            rw [h4, ok_bind]
            simp only
            rw [h5, ok_bind, collectFor_ok h6, ok_bind]
            exact h3
          rw [this, ok_bind]
          exact h2
      rw [this, ok_bind]
      exact h

/-- **C94** (violation of what a user expects) If the text has exactly one S* position `p`, and the length of its S* substring (the
bytes from `p` to the terminator, both included) is a multiple of 256, there are contents `J` of the memory `realloc` hands out
with which `bwt_string` does not end, however many steps (`k` more than those of the model) are made: whatever `std::sort` does and
whatever the rest of memory contains. -/
theorem C94_never_ends (s : List Nat) (h3 : 3 ≤ s.length) (h57 : s.length < 2 ^ 57) (hb : ∀ c ∈ s, c < 256)
    (p : Nat) (hp : ∀ q, SStar s q ↔ q = p) (hm : (s.length - p + 1) % 256 = 0) :
    ∃ J : Fresh, J.lim = enoughFor s.length ∧ ∀ (w : World) (T : Mem Nat), w.junk = J → HoldsString T s → ∀ (freeT : Bool) (k : Nat),
      bwtStringFor k w (some T) s.length freeT = .error (.ub .diverge) := by
  refine ⟨hangBytes (1 + nb (s.length - p + 1)) (3 + nb (s.length - p + 1) + (s.length - p + 1) + nb (s.length / 2 + 1) + 13) (enoughFor s.length), rfl, ?_⟩
  intro w T hJ hT freeT k
  have I := hT.input h3 h57 hb (hT.term_lt h3 hb)
  have hpl := (hT.sstar p).1 ((hp p).2 rfl)
  have huniq : ∀ q, isLMS T.data s.length q → q = p := fun q hq => (hp q).1 ((hT.sstar q).2 hq)
  have hpn := hpl.2.1
  have hlim : enoughFor s.length ≤ w.junk.lim := by rw [hJ]; exact Nat.le_refl _
  obtain ⟨ct, e1, ht, a1, a2, a3, a4, a5, B, a6, a7⟩ := Tot_iff.1 (extract_hang I hpl huniq hlim hm (by
    rintro NB i rfl
    rw [hJ]; rfl))
  simp only [bwtStringFor]
  rw [if_neg (by omega), e1, ok_bind, sort_hang k hpn h57 hlim w.sorter w.pj a1 a3 a4 a5 B a6 (by omega) (by omega) a7]
  rfl

/-- **C94** in particular the model of `bwt_string` ends with the fault `diverge`. -/
theorem C94_diverges (s : List Nat) (h3 : 3 ≤ s.length) (h57 : s.length < 2 ^ 57) (hb : ∀ c ∈ s, c < 256)
    (p : Nat) (hp : ∀ q, SStar s q ↔ q = p) (hm : (s.length - p + 1) % 256 = 0) :
    ∃ J : Fresh, J.lim = enoughFor s.length ∧ ∀ (w : World) (T : Mem Nat), w.junk = J → HoldsString T s → ∀ freeT,
      bwtString w (some T) s.length freeT = .error (.ub .diverge) := by
  obtain ⟨J, h1, h2⟩ := C94_never_ends s h3 h57 hb p hp hm
  exact ⟨J, h1, fun w T hJ hT freeT => h2 w T hJ hT freeT 0⟩

/-- **C94** the strings `b a c c ... c` (`a < b`, `a < c`) whose length is a multiple of 256: with zeroed memory the call returns the
transform, and there is a memory with which it does not end. -/
theorem C94_bac (a b c n : Nat) (hab : a < b) (hac : a < c) (hb : b < 256) (hc : c < 256) (hn : n < 2 ^ 57) (h0 : 0 < n)
    (hm : n % 256 = 0) :
    ∃ J : Fresh, J.lim = enoughFor n ∧ ∀ (w : World) (freeT : Bool), SortsOK w.sorter →
      (∀ k, bwtStringFor k { w with junk := J } (some (cString (b :: a :: List.replicate (n - 2) c))) n freeT = .error (.ub .diverge)) ∧
      ∃ r T', bwtString { w with junk := ⟨fun _ => 0, J.lim⟩ } (some (cString (b :: a :: List.replicate (n - 2) c))) n freeT = .ok (some r, T') ∧
        IsBWT (b :: a :: List.replicate (n - 2) c) r.bwt.data r.last := by
  have hl : (b :: a :: List.replicate (n - 2) c).length = n := by
    simp only [List.length_cons, List.length_replicate]; omega
  obtain ⟨J, h1, h2⟩ := C94_never_ends (b :: a :: List.replicate (n - 2) c) (by omega) (by omega) (bac_bytes hb hc hab) 1
    (fun q => sstar_bac hab hac (by omega) q) (by rw [hl]; omega)
  rw [hl] at h1 h2
  refine ⟨J, h1, fun w freeT hS => ⟨fun k => h2 _ _ rfl (cString_holds _) freeT k, ?_⟩⟩
  obtain ⟨r, T', e, _, h⟩ := C01_bwt_string_correct (T := cString (b :: a :: List.replicate (n - 2) c))
    (s := b :: a :: List.replicate (n - 2) c) { w with junk := ⟨fun _ => 0, J.lim⟩ }
    ⟨by omega, by omega, bac_bytes hb hc hab, cString_holds _, hS, Or.inl (fun _ => rfl), by rw [hl, h1]⟩ freeT
  rw [hl] at e
  exact ⟨r, T', e, h⟩

/-- **C94** for files: `bwt_file` does not end either; no file has been changed by then. -/
theorem C94_file (h : Host) (inp out : String) (s : FState) {content : List Nat} (h3 : 3 ≤ content.length) (h57 : content.length < 2 ^ 57)
    (hb : ∀ c ∈ content, c < 256) (p : Nat) (hp : ∀ q, SStar content q ↔ q = p) (hm : (content.length - p + 1) % 256 = 0)
    (hf : s.files inp = some content) (hr : h.mayRead inp = true) (ht : h.tell content = content.length)
    (hma : h.mallocOk (content.length + 1) = true) (hk : content.length ≤ h.readMax) :
    ∃ J : Fresh, J.lim = enoughFor content.length ∧ ∀ w : World, w.junk = J →
      ∃ s', bwtFile w h inp out s = (.error (.ub .diverge), s') ∧ s'.files = s.files := by
  obtain ⟨J, h1, h2⟩ := C94_diverges content h3 h57 hb p hp hm
  exact ⟨J, h1, fun w hJ => C75_failed_transform h inp out s w hf hr ht hma hk (by omega) (by omega) _ (fun T hT => h2 w T hJ hT true)⟩

/-- "ba" and 254 times "c" -/
example : ∃ J : Fresh, J.lim = enoughFor 256 ∧ ∀ (w : World) (T : Mem Nat), w.junk = J → HoldsString T (98 :: 97 :: List.replicate 254 99) →
    ∀ freeT, bwtString w (some T) 256 freeT = .error (.ub .diverge) := by
  have hl : (98 :: 97 :: List.replicate 254 99).length = 256 := by simp only [List.length_cons, List.length_replicate]
  have := C94_diverges (98 :: 97 :: List.replicate 254 99) (by omega) (by omega) (bac_bytes (by omega) (by omega) (by omega)) 1
    (fun q => sstar_bac (by omega) (by omega) (by omega) q) (by rw [hl])
  rw [hl] at this
  exact this

/-- The same contents as a file. -/
example : ∃ J : Fresh, J.lim = enoughFor 256 ∧ ∀ w : World, w.junk = J →
    ∃ s', bwtFile w niceHost "in" "out" { niceFiles with files := fun f => if f = "in" then some (98 :: 97 :: List.replicate 254 99) else none } =
      (.error (.ub .diverge), s') ∧ s'.files = fun f => if f = "in" then some (98 :: 97 :: List.replicate 254 99) else none := by
  have hl : (98 :: 97 :: List.replicate 254 99).length = 256 := by simp only [List.length_cons, List.length_replicate]
  have := C94_file niceHost "in" "out" { niceFiles with files := fun f => if f = "in" then some (98 :: 97 :: List.replicate 254 99) else none }
    (content := 98 :: 97 :: List.replicate 254 99) (by omega) (by omega) (bac_bytes (by omega) (by omega) (by omega)) 1
    (fun q => sstar_bac (by omega) (by omega) (by omega) q) (by rw [hl]) rfl rfl
    rfl rfl (by rw [hl]; decide)
  rw [hl] at this
  exact this

end Flbwt
