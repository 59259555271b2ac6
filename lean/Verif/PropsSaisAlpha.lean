import Verif.PropsSaisInt

/-!
# Property C76: the suffix sorters need the alphabet bound

`k` is not only a hint: the counters have `k` entries. Without a workspace of `k` entries (`fs < k`) they are allocated, and the first
character `≥ k` is looked up behind their end.
-/

namespace Flbwt

open SaStore

variable {S : Type}

section
variable [LawfulSaStore S]

/-- the error C76 speaks of -/
def IsOob (e : Err) : Prop := e = .ub .outOfBounds

/-- the counters after `i` characters: allocated, and none is larger than `i` -/
def CountsUpTo (k i : Nat) (s : St S) : Prop := size s.hp = k ∧ ∀ j, j < k → 0 ≤ get s.hp j ∧ get s.hp j ≤ (i : Int)

theorem ld_hp_oob {s : St S} {i : Int} (h : (size s.hp : Int) ≤ i) : ErrIn IsOob (s.ld .hp i) (fun _ => False) := by
  unfold St.ld
  exact ErrIn.ite (fun h' => absurd h' (by omega)) (fun _ => rfl)

theorem st_hp_in {s : St S} {i : Nat} {v : Int} (hv : Fit S v) :
    ErrIn IsOob (s.st .hp (i : Int) v) (fun s' => size s'.hp = size s.hp ∧ ∀ j, get s'.hp j = if j = i then v else get s.hp j) := by
  unfold St.st
  refine ErrIn.ite (fun _ => ?_) (fun h' => absurd hv h')
  refine ErrIn.ite (fun _ => ?_) (fun _ => rfl)
  exact ⟨LawfulSaStore.size_put s.hp _ v, fun j => LawfulSaStore.get_put s.hp _ j v hv.1 hv.2⟩

/-- the loop over the text gets no further than the first character that is too large -/
theorem getCounts_large {e : Env} {n k i0 : Nat} (hi : i0 < n) (hn : (n : Int) < 2 ^ (width S - 1)) (t : Nat → Nat)
    (hc : ∀ (s : St S) i, i < n → chr e s (i : Int) = .ok (t i : Int)) (hk : k ≤ t i0) {s : St S} (h : size s.hp = k) :
    ErrIn IsOob (getCounts e .hp n k s) (fun _ => False) := by
  have fit : ∀ v : Int, 0 ≤ v → v ≤ n → Fit S v := fun v h0 h1 => by
    have : (0 : Int) < 2 ^ (width S - 1) := by positivity
    exact ⟨by omega, by omega⟩
  unfold getCounts
  refine ErrIn.bind (Q := CountsUpTo k 0) ?_ fun s h => ?_
  · refine (ErrIn.loopUp (fun i s => size s.hp = k ∧ ∀ j, j < i → get s.hp j = 0) 0 k s _ ⟨h, fun j hj => absurd hj (by omega)⟩
      fun i s _ hik h => ?_).mono fun s h => ⟨h.1, fun j hj => by rw [h.2 j (by omega)]; simp⟩
    refine (st_hp_in (fit 0 (by omega) (by omega))).mono fun s' g => ⟨g.1.trans h.1, fun j hj => ?_⟩
    rw [g.2 j]
    split
    · rfl
    · exact h.2 j (by omega)
  · refine (ErrIn.loopUp (fun i s => CountsUpTo k i s ∧ i ≤ i0) 0 n s _ ⟨h, Nat.zero_le _⟩ fun i s _ hin h => ?_).mono
      fun _ h => by omega
    rw [hc s i (by omega)]
    refine ErrIn.bind (Q := fun x => x = (t i : Int)) (show (t i : Int) = _ from rfl) fun x hx => ?_
    rcases Nat.lt_or_ge (t i) k with hlt | hge
    · have hne : i ≠ i0 := fun he => by rw [he] at hlt; omega
      obtain ⟨⟨h1, h2⟩, h3⟩ := h
      subst hx
      refine ErrIn.bind (Q := fun v => v = get s.hp (t i)) ?_ fun v hv => ?_
      · unfold St.ld
        exact ErrIn.ite (fun _ => by rw [Int.toNat_natCast]; exact (rfl : get s.hp (t i) = _)) (fun _ => rfl)
      · have := h2 _ hlt
        refine (st_hp_in (fit _ (by omega) (by omega))).mono
          fun s' g => ⟨⟨g.1.trans h1, fun j hj => ?_⟩, by omega⟩
        rw [g.2 j]
        have := h2 _ hj
        push_cast
        split <;> omega
    · exact (ld_hp_oob (by rw [hx, h.1.1]; exact_mod_cast hge)).bind fun _ h => h.elim

theorem sais_large {e : Env} {n k fs i0 : Nat} (hi : i0 < n) (hn : n < 2 ^ (width S - 1)) (t : Nat → Nat)
    (hc : ∀ (s : St S) i, i < n → chr e s (i : Int) = .ok (t i : Int)) (hk : k ≤ t i0) (hfs : fs < k)
    (junk : Nat → Nat → BitVec 64) (fuel : Nat) (s : St S) :
    sais junk (fuel + 1) e fs n k s = .error (.ub .outOfBounds) := by
  have key : ErrIn IsOob (sais junk (fuel + 1) e fs n k s) (fun _ => False) := by
    rw [sais]
    refine ErrIn.bind (Q := fun _ => False) ?_ fun _ h => h.elim
    unfold stage1 placeCounters
    rw [if_neg (by omega)]
    dsimp only
    exact (getCounts_large hi (by exact_mod_cast hn) t hc hk (LawfulSaStore.size_fresh k _)).bind fun _ h => h.elim
  cases hx : sais junk (fuel + 1) e fs n k s with
  | ok a => rw [hx] at key; exact key.elim
  | error u => rw [hx] at key; exact congrArg _ key

end

/-- **C76** Every character must be below `k`: if some character of the string is not, and the workspace is smaller than `k`, every
one of the five sorters accesses memory out of bounds, whatever the string, the array and the contents of memory are. -/
theorem C76_alphabet_bound [LawfulSaStore S] (junk : Nat → Nat → BitVec 64) (sj : BitVec 64) (pa : PackedArray) (sa : S)
    (fs k fuel : Nat) (text : List Nat) (htext : HoldsText sj pa text) (hcs : pa.bits ≠ width S)
    (hnw : text.length < 2 ^ (width S - 1)) (hlarge : ∃ c ∈ text, k ≤ c) (hfs : fs < k) :
    saisCall junk sj pa sa fs text.length k (fuel + 1) = .error (.ub .outOfBounds) := by
  obtain ⟨c, hc, hk⟩ := hlarge
  obtain ⟨i, hi, rfl⟩ := List.getElem_of_mem hc
  refine sais_large hi hnw (fun i => text.getD i 0) (fun s i hi => ?_) (by rw [getD_lt hi]; exact hk) hfs junk fuel _
  rw [getD_lt hi]
  obtain ⟨v, hv, hv'⟩ := htext i hi
  unfold chr
  rw [if_neg hcs]
  dsimp only
  rw [if_pos (by omega), show ((i : Int) + 1).toNat = i + 1 from by omega, show getBits sj pa.arr pa.bits (i + 1) = .ok v from hv]
  show Except.ok (v.toNat : Int) = _
  rw [hv']

/-- **C76** for a text given as an integer array -/
theorem C76_alphabet_bound_ints [LawfulSaStore S] (junk : Nat → Nat → BitVec 64) (sj : BitVec 64) (ta sa : S)
    (fs k fuel : Nat) (text : List Nat) (htext : HoldsInts ta text) (hnw : text.length < 2 ^ (width S - 1))
    (hlarge : ∃ c ∈ text, k ≤ c) (hfs : fs < k) :
    saisIntCall junk sj ta sa fs text.length k (fuel + 1) = .error (.ub .outOfBounds) := by
  obtain ⟨c, hc, hk⟩ := hlarge
  obtain ⟨i, hi, rfl⟩ := List.getElem_of_mem hc
  refine sais_large hi hnw (fun i => text.getD i 0) (fun s i hi => ?_) (by rw [getD_lt hi]; exact hk) hfs junk fuel _
  rw [getD_lt hi]
  obtain ⟨h1, h2⟩ := htext i hi
  unfold chr
  rw [if_pos (by rfl)]
  dsimp only
  rw [if_pos (by omega), Int.toNat_natCast, Mem.rd_ok _ h1]
  show Except.ok ((getU ta i : Nat) : Int) = _
  rw [LawfulSaStore.getU_get _ _ (by rw [h2]; omega), h2]
  simp

/-! ## The hypotheses are met: "2 1 2 1 0" sorted as if it had two characters -/

example : saisCall (fun _ _ => 5) 0 demoPacked (⟨⟨6, fun _ => 77⟩⟩ : S32) 1 5 2 31 = .error (.ub .outOfBounds) :=
  C76_alphabet_bound (S := S32) _ 0 demoPacked _ 1 2 30 [2, 1, 2, 1, 0] demo_holds (by decide) (by decide) ⟨2, by decide, by decide⟩ (by decide)

example : saisIntCall (fun _ _ => 5) 0 demoInts (⟨⟨5, fun _ => 77⟩⟩ : S32) 0 5 1 31 = .error (.ub .outOfBounds) :=
  C76_alphabet_bound_ints (S := S32) _ 0 demoInts _ 0 1 30 [2, 1, 2, 1, 0] demoInts_holds (by decide) ⟨2, by decide, by decide⟩ (by decide)

end Flbwt
