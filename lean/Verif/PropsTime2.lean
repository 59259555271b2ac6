import Verif.PropsTime
import Verif.TimeFront

/-!
# Property C53: the running time

`bwtStringT w ws` is `bwt_string` with a counter of loop iterations (`TimeModel.lean`, `TimeFrontModel.lean`); `ws` is
the weight of the iterations spent on searching a chain of the hash table. It computes what the model of `bwt_string`
computes (`C53_counts_the_model`). Without the searches (`ws = 0`) the time is linear in the length of the string; with
them (`ws = 1`) it is at most quadratic, and C52 shows that this cannot be improved: `C53_quadratic_is_reached`.
-/

namespace Flbwt

open TM
open HashTable (ok_bind)

variable {T : Mem Nat} {s : List Nat}

/-- **C53** Counting changes nothing: on all arguments, with every weight, the counting program ends as `bwt_string`. -/
theorem C53_counts_the_model (w : World) (ws : Nat) (T : Option (Mem Nat)) (n : Nat) (freeT : Bool) :
    erase (bwtStringT w ws T n freeT) = bwtString w T n freeT := erase_bwtString w ws T n freeT

theorem time_good (w : World) (ws : Nat) (g : GoodCall w.junk w.sorter T s) (freeT : Bool) :
    ∃ r c, bwtStringT w ws (some T) s.length freeT = .ok ((some r, release freeT T), c) ∧ IsBWT s r.bwt.data r.last ∧
      c ≤ timeBound ws s.length := by
  obtain ⟨r, e, _, h⟩ := bwtString_good w g freeT
  have h3 := g.len3
  have e' := erase_bwtString w ws (some T) s.length freeT
  rw [e] at e'
  cases hx : bwtStringT w ws (some T) s.length freeT with
  | error f => rw [hx] at e'; cases e'
  | ok q =>
    rw [hx] at e'
    obtain ⟨q1, q2⟩ := q
    cases e'
    refine ⟨r, q2, rfl, h, ?_⟩
    have hx' : bwtIsT w ws T s.length freeT = .ok ((some r, release freeT T), q2) := by
      rw [← hx]; unfold bwtStringT; simp only; rw [if_neg (by omega)]
    exact cost_bwtIs w ws g.inp g.min g.len g.sort freeT _ hx'

/-- **C53** Apart from the searches in the hash table and the library calls, `bwt_string` makes at most `62·n + 276865`
loop iterations on a string of `n` bytes. -/
theorem C53_linear_without_searches (w : World) (g : GoodCall w.junk w.sorter T s) (freeT : Bool) :
    ∃ r T' c, bwtStringT w 0 (some T) s.length freeT = .ok ((some r, T'), c) ∧ IsBWT s r.bwt.data r.last ∧
      c ≤ 62 * s.length + 276865 := by
  obtain ⟨r, c, e, h, hc⟩ := time_good w 0 g freeT
  exact ⟨r, _, c, e, h, by simpa [timeBound] using hc⟩

/-- **C53** With the searches the number of loop iterations is at most quadratic. -/
theorem C53_quadratic (w : World) (g : GoodCall w.junk w.sorter T s) (freeT : Bool) :
    ∃ r T' c, bwtStringT w 1 (some T) s.length freeT = .ok ((some r, T'), c) ∧ IsBWT s r.bwt.data r.last ∧
      c ≤ 62 * s.length + 276865 + 6 * s.length ^ 2 := by
  obtain ⟨r, c, e, h, hc⟩ := time_good w 1 g freeT
  refine ⟨r, _, c, e, h, ?_⟩
  have : 1 * (6 * s.length * s.length) = 6 * s.length ^ 2 := by ring
  unfold timeBound at hc
  omega

/-! ## The lower bound -/

/-- if `x` ends normally, then with a value and a number of iterations that satisfy `P` -/
def Ends {α : Type _} (x : TM α) (P : α → Nat → Prop) : Prop := ∀ v a, x = .ok (v, a) → P v a

section
variable {α β σ : Type _}

theorem Ends.any (x : TM α) : Ends x (fun _ _ => True) := fun _ _ _ => trivial

theorem Ends.bind {x : TM α} {k : α → TM β} {P : α → Nat → Prop} {Q : β → Nat → Prop} (hx : Ends x P)
    (hk : ∀ v a, P v a → Ends (k v) (fun r b => Q r (a + b))) : Ends (x >>= k) Q := by
  intro r c hr
  change bind' x k = _ at hr
  cases x with
  | error e => cases hr
  | ok v =>
    unfold bind' at hr
    simp only at hr
    cases hq : k v.1 with
    | error e => rw [hq] at hr; cases hr
    | ok q =>
      rw [hq] at hr
      cases hr
      exact hk v.1 v.2 (hx _ _ rfl) _ _ hq

theorem Ends.pure {v : α} {P : α → Nat → Prop} (h : P v 0) : Ends (Pure.pure v : TM α) P := by
  intro r c hr
  cases hr
  exact h

theorem Ends.lift {x : M α} {P : α → Nat → Prop} (h : ∀ v, x = .ok v → P v 0) : Ends (TM.lift x) P := by
  intro r c hr
  cases x with
  | error e => cases hr
  | ok a => cases hr; exact h _ rfl

theorem Ends.scale {x : TM α} {k : Nat} {P : α → Nat → Prop} (h : Ends x (fun v a => P v (k * a))) : Ends (TM.scale k x) P := by
  intro r c hr
  cases x with
  | error e => cases hr
  | ok a => cases hr; exact h _ _ rfl

theorem Ends.tick {x : TM α} {P : α → Nat → Prop} (h : Ends x (fun v a => P v (a + 1))) : Ends (TM.tick x) P := by
  intro r c hr
  cases x with
  | error e => cases hr
  | ok a => cases hr; exact h _ _ rfl

theorem Ends.mono {x : TM α} {P Q : α → Nat → Prop} (h : Ends x P) (hPQ : ∀ v a, P v a → Q v a) : Ends x Q :=
  fun v a e => hPQ v a (h v a e)

/-- Every pass through the body pays for the growth of the potential. -/
theorem Ends.loopDown (pot : σ → Nat) {f : Nat → σ → TM σ} (hi : Nat) (s : σ)
    (h : ∀ i s, Ends (f i s) (fun s' a => pot s' ≤ pot s + a)) : Ends (loopDownT hi s f) (fun s' a => pot s' ≤ pot s + a) := by
  induction hi generalizing s with
  | zero => exact Ends.pure (Nat.le_refl _)
  | succ c ih =>
    unfold loopDownT
    refine Ends.tick (Ends.bind (h c s) fun v a hv => (ih v).mono fun r b hr => ?_)
    omega

theorem Ends.while (pot : σ → Nat) (pot' : β → Nat) {f : σ → TM (σ ⊕ β)} (fuel : Nat) (s : σ)
    (h : ∀ s, Ends (f s) (fun r _ => match r with | .inl s' => pot s' ≤ pot s + 1 | .inr b => pot' b ≤ pot s)) :
    Ends (whileT fuel s f) (fun b a => pot' b ≤ pot s + a) := by
  induction fuel generalizing s with
  | zero => exact Ends.lift fun v e => by cases e
  | succ c ih =>
    unfold whileT
    refine Ends.tick (Ends.bind (h s) fun v a hv => ?_)
    cases v with
    | inl s' =>
      simp only at hv ⊢
      exact (ih s').mono fun r b hr => by omega
    | inr b => exact Ends.pure (by simp only at hv ⊢; omega)
end

namespace HashTable

/-- the counter at the end of a scan -/
def endColl : ScanEnd → Nat
  | .dup c => c
  | .free _ _ c => c

theorem ends_insertStep (NB : Nat) (buf T : Mem Nat) (m p : Nat) (x : Nat × Option Nat × Nat) :
    Ends (insertStepT NB buf T m p x)
      (fun r _ => match r with | .inl s' => s'.2.2 ≤ x.2.2 + 1 | .inr b => endColl b ≤ x.2.2) := by
  obtain ⟨q, r, coll⟩ := x
  unfold insertStepT
  simp only
  split
  · refine Ends.bind (Ends.any _) fun l _ _ => ?_
    split
    · exact Ends.pure (Nat.le_refl _)
    split
    · exact Ends.bind (Ends.any _) fun _ _ _ => Ends.pure (Nat.le_refl _)
    split
    · exact Ends.bind (Ends.any _) fun _ _ _ => Ends.pure (Nat.le_refl _)
    · refine Ends.bind (Ends.any _) fun _ _ _ => Ends.bind (Ends.any _) fun _ _ _ => ?_
      split
      · exact Ends.pure (Nat.le_refl _)
      · exact Ends.bind (Ends.any _) fun _ _ _ => Ends.pure (Nat.le_refl _)
  · exact Ends.pure (Nat.le_refl _)

theorem makeRoom_collisions {junk : Fresh} {ht : HashTable} {h q : Nat} {r : Option Nat} {space : Nat} {x : HashTable × Nat}
    (e : makeRoom junk ht h q r space = .ok x) : x.1.collisions = ht.collisions := by
  unfold makeRoom at e
  cases h1 : ht.rest.rd h with
  | error f => rw [h1] at e; cases e
  | ok rest =>
    rw [h1, ok_bind] at e
    cases hl : spaceLimit rest with
    | error f => rw [hl] at e; cases e
    | ok lim =>
    rw [hl, ok_bind] at e
    split at e
    · cases h2 : reallocBytes junk ht.buf (ht.bufsize + ht.hbsize + space) with
      | error f => rw [h2] at e; cases e
      | ok buf =>
        rw [h2] at e
        cases h3 : ht.rest.wr h (ht.hbsize + space) with
        | error f => 
          change (ht.rest.wr h (ht.hbsize + space) >>= _) = _ at e
          rw [h3] at e; cases e
        | ok rest' =>
          change (ht.rest.wr h (ht.hbsize + space) >>= _) = _ at e
          rw [h3] at e
          change (linkBlock _ h q r _ >>= _) = _ at e
          unfold linkBlock at e
          split at e
          · simp only at e
            cases h4 : ht.head.wr h (ht.bufsize + 1) with
            | error f => rw [h4] at e; cases e
            | ok hd => rw [h4] at e; cases e; rfl
          · cases r with
            | none => cases e
            | some pp =>
              simp only at e
              cases h4 : setPointer buf pp (ht.bufsize + 1) with
              | error f => rw [h4] at e; cases e
              | ok hd => rw [h4] at e; cases e; rfl
    · cases r with
      | none => cases e
      | some r => cases e; rfl

theorem ends_insertTail (junk : Fresh) (ht : HashTable) (T : Mem Nat) (m p h : Nat) (e : ScanEnd) :
    Ends (insertTailT junk ht T m p h e) (fun r _ => r.1.collisions = endColl e) := by
  cases e with
  | dup c => exact Ends.pure rfl
  | free q r c =>
    refine Ends.bind (Ends.any _) fun lb _ _ => ?_
    refine Ends.bind (P := fun x _ => x.1.collisions = c) (Ends.lift fun v hv => makeRoom_collisions hv) fun x _ hx => ?_
    refine Ends.bind (Ends.any _) fun buf _ _ => Ends.bind (Ends.any _) fun _ _ _ => Ends.bind (Ends.any _) fun _ _ _ => ?_
    exact Ends.pure hx

theorem ends_insertString (junk : Fresh) (ht : HashTable) (T : Mem Nat) (m p : Nat) :
    Ends (insertStringT 1 junk ht T m p) (fun r a => r.1.collisions ≤ ht.collisions + a) := by
  unfold insertStringT
  refine Ends.bind (Ends.any _) fun h _ _ => Ends.bind (Ends.any _) fun q _ _ => ?_
  refine Ends.bind (P := fun e a => endColl e ≤ ht.collisions + a) (Ends.scale ?_) fun e a he => ?_
  · refine (Ends.while (fun x : Nat × Option Nat × Nat => x.2.2) endColl _ _ fun x => ?_).mono
      fun v a h => by simpa using h
    refine (ends_insertStep _ _ _ _ _ x).mono fun r _ hr => ?_
    cases r <;> exact hr
  · exact (ends_insertTail _ _ _ _ _ _ _).mono fun r b hr => by omega

end HashTable

theorem ends_exStep (junk : Fresh) (T : Mem Nat) (i : Nat) (s : ExSt) :
    Ends (exStepT 1 junk T i s) (fun r a => r.ht.collisions ≤ s.ht.collisions + a) := by
  unfold exStepT
  refine Ends.bind (Ends.any _) fun a _ _ => Ends.bind (Ends.any _) fun b _ _ => Ends.bind (Ends.any _) fun M _ _ => ?_
  split
  · exact Ends.pure (by simp only; omega)
  split
  · refine Ends.bind (P := fun r a => r.ht.collisions ≤ s.ht.collisions + a) ?_ fun r a hr => ?_
    · unfold exMaybeT
      split
      · unfold exFoundT
        refine Ends.bind (Ends.any _) fun _ _ _ => Ends.bind (Ends.any _) fun _ _ _ => ?_
        refine Ends.bind (HashTable.ends_insertString _ _ _ _ _) fun v a hv => Ends.pure ?_
        simp only at hv ⊢
        omega
      · exact Ends.pure (by simp only; omega)
    · exact Ends.bind (Ends.any _) fun _ _ _ => Ends.pure (by simp only at hr ⊢; omega)
  split
  · exact Ends.bind (Ends.any _) fun _ _ _ => Ends.pure (by simp only; omega)
  · exact Ends.pure (by simp only; omega)

theorem ends_extractLMS (junk : Fresh) (T : Mem Nat) (n : Nat) :
    Ends (extractLMST 1 junk T n) (fun ct a => ∀ ht, ct.hashtable = some ht → ht.collisions ≤ a) := by
  unfold extractLMST
  refine Ends.bind (P := fun ct _ => ct = Container.new n) ?_ ?_
  · intro v a e
    cases e; rfl
  rintro ct _ rfl
  split
  · exact Ends.pure fun ht e => by cases e
  · refine Ends.bind (P := fun ht _ => ht.collisions = 0) ?_ fun ht a hht => ?_
    · intro v a e
      unfold HashTable.new at e
      simp only at e
      cases hb : positionOfMsb (n / 2 + 1) with
      | error f => rw [hb] at e; cases e
      | ok bits => rw [hb] at e; cases e; rfl
    refine Ends.bind (Ends.any _) fun _ _ _ => Ends.bind (Ends.any _) fun _ _ _ => Ends.bind (Ends.any _) fun _ _ _ =>
      Ends.bind (Ends.any _) fun _ _ _ => Ends.bind (Ends.any _) fun _ _ _ => ?_
    refine Ends.bind (Ends.loopDown (fun s : ExSt => s.ht.collisions) _ _ (ends_exStep junk T)) fun s b hs => Ends.pure ?_
    intro ht' e
    cases e
    simp only [hht] at hs
    omega

/-- **C53** The quadratic bound is reached: for every `k ≤ 2^49` there is a string of `67·(k + 2)` bytes on which
`bwt_string` makes at least `k·(k-1)/2` loop iterations, whatever the memory contains and however `std::sort` works. -/
theorem C53_quadratic_is_reached (k : Nat) (hk : k ≤ 2 ^ 49) : ∃ s : List Nat, s.length = 67 * (k + 2) ∧
    (∀ (junk : Fresh) (sorter : Sorter) (T : Mem Nat), HoldsString T s → SortsOK sorter → enoughFor s.length ≤ junk.lim →
      GoodCall junk sorter T s) ∧
    ∀ (w : World) (T : Mem Nat) (freeT : Bool), GoodCall w.junk w.sorter T s →
      ∃ r T' c, bwtStringT w 1 (some T) s.length freeT = .ok ((some r, T'), c) ∧ IsBWT s r.bwt.data r.last ∧
        k * (k - 1) ≤ 2 * c := by
  have e1 : (2 : Nat) ^ 57 = 256 * 2 ^ 49 := by norm_num
  have e3 : (2 : Nat) ^ 49 = 562949953421312 := by norm_num
  obtain ⟨s, hs1, hs2, hs3, hs4⟩ := C52_quadratic_searches k hk
  refine ⟨s, hs1, fun junk sorter T h1 h2 h3 => ⟨by omega, by omega, hs2, h1, h2, Or.inr hs3, h3⟩, fun w T freeT g => ?_⟩
  obtain ⟨r, c, e, h, _⟩ := time_good w 1 g freeT
  refine ⟨r, _, c, e, h, ?_⟩
  obtain ⟨ct, ht, a1, a2, a3⟩ := hs4 w.junk w.sorter T g
  refine Nat.le_trans a3 (Nat.mul_le_mul_left 2 ?_)
  have key : Ends (bwtStringT w 1 (some T) s.length freeT) (fun _ c => ht.collisions ≤ c) := by
    have h3 := g.len3
    unfold bwtStringT
    simp only
    rw [if_neg (by omega)]
    unfold bwtIsT
    refine Ends.bind (P := fun _ a => ht.collisions ≤ a) ?_ fun ct' a h => ?_
    · intro ct' a e
      have e' := erase_extractLMS 1 w.junk T s.length
      rw [e, a1] at e'
      cases e'
      exact ends_extractLMS _ _ _ _ _ e ht a2
    · exact (Ends.any _).mono fun _ _ _ => by omega
  exact key _ _ e

/-- The hypotheses can be met: "banana" with insertion sort. -/
example (w : World) (freeT : Bool) : ∃ r T' c,
    bwtStringT { w with junk := ⟨fun i => 2 * i + 1, 40000000⟩, sorter := insSort } 0 (some (cString banana)) 6 freeT =
      .ok ((some r, T'), c) ∧ IsBWT banana r.bwt.data r.last ∧ c ≤ 62 * 6 + 276865 :=
  C53_linear_without_searches { w with junk := ⟨fun i => 2 * i + 1, 40000000⟩, sorter := insSort } banana_good freeT

/-- and a string on which half a million records are visited -/
example (w : World) : ∃ (s : List Nat) (T : Mem Nat) (c : Nat) (x : Option BwtResult × Option (Mem Nat)), s.length = 67 * 1002 ∧
    bwtStringT { w with junk := ⟨fun _ => 7, enoughFor s.length⟩, sorter := insSort } 1 (some T) s.length false = .ok (x, c) ∧
      499500 ≤ c := by
  obtain ⟨s, h0, h1, h2⟩ := C53_quadratic_is_reached 1000 (by norm_num)
  obtain ⟨r, T', c, e, _, hc⟩ := h2 { w with junk := ⟨fun _ => 7, enoughFor s.length⟩, sorter := insSort } (cString s) false
    (h1 _ _ _ (cString_holds s) insSort_ok (Nat.le_refl _))
  exact ⟨s, _, c, _, h0, e, by omega⟩

/-! ## The suffix sorters alone -/

open SaStore in
/-- **C54** Each of the five suffix sorters, on a string of `n` characters from `0 … k-1`, with every workspace size and
every initial contents of memory, makes at most `56·n + 12·k` loop iterations, all levels of the recursion together; and
what is counted is the call that computes the suffix array (C24, C25). -/
theorem C54_suffix_sort_linear {S : Type} [LawfulSaStore S] (junk : Nat → Nat → BitVec 64) (sj : BitVec 64)
    (pa : PackedArray) (sa : S) (fs k fuel : Nat) (text : List Nat) (htext : HoldsText sj pa text) (hn : text ≠ [])
    (hT : ∀ c ∈ text, c < k) (hcs : pa.bits ≠ width S) (hnw : text.length < 2 ^ (width S - 1))
    (hkw : k ≤ 2 ^ (width S - 1)) (hsz : text.length + fs ≤ size sa) (hf : text.length < 2 ^ fuel) :
    ∃ st c, saisT junk fuel { txt := .packed pa.arr, cs := pa.bits, sj := sj } fs text.length k ⟨sa, fresh 0 (fun _ => 0)⟩ =
        .ok (st, c) ∧
      saisCall junk sj pa sa fs text.length k fuel = .ok st ∧ IsSuffixArray text (saList st text.length) ∧
      c ≤ 56 * text.length + 12 * k := by
  obtain ⟨st, e, _, _, _, h⟩ := Tot_iff.1 (saisCall_tot junk sj pa sa fs k fuel text hcs htext hn hnw hkw hT hsz hf)
  have hn1 : 1 ≤ text.length := List.length_pos_of_ne_nil hn
  have hc := cost_sais (S := S) junk fuel { txt := .packed pa.arr, cs := pa.bits, sj := sj } fs text.length k
    ⟨sa, fresh 0 (fun _ => 0)⟩ (fun i => text.getD i 0) hn1 (by exact_mod_cast hnw) (by exact_mod_cast hkw)
    (fun i hi => hT _ (by simp [hi]))
    ⟨hcs, fun i hi => by
      obtain ⟨v, h1, h2⟩ := htext i hi
      exact ⟨v, h1, by simp [h2, hi]⟩⟩ hsz
  have e' := erase_sais (S := S) junk fuel { txt := .packed pa.arr, cs := pa.bits, sj := sj } fs text.length k
    ⟨sa, fresh 0 (fun _ => 0)⟩
  unfold saisCall at e
  rw [e] at e'
  cases hx : saisT junk fuel { txt := .packed pa.arr, cs := pa.bits, sj := sj } fs text.length k ⟨sa, fresh 0 (fun _ => 0)⟩ with
  | error f => rw [hx] at e'; cases e'
  | ok q =>
    rw [hx] at e'
    obtain ⟨q1, q2⟩ := q
    cases e'
    have := hc _ hx
    exact ⟨_, q2, rfl, e, h, by simp only at this; omega⟩

open SaStore in
example : ∃ st c, saisT (fun _ _ => 5) 31 { txt := .packed demoPacked.arr, cs := 3, sj := 0 } 0 5 3
    ⟨(⟨⟨5, fun _ => 77⟩⟩ : S32), fresh 0 (fun _ => 0)⟩ = .ok (st, c) ∧
    saisCall (fun _ _ => 5) 0 demoPacked (⟨⟨5, fun _ => 77⟩⟩ : S32) 0 5 3 31 = .ok st ∧
    IsSuffixArray [2, 1, 2, 1, 0] (saList st 5) ∧ c ≤ 56 * 5 + 12 * 3 :=
  C54_suffix_sort_linear (S := S32) _ 0 demoPacked _ 0 3 31 [2, 1, 2, 1, 0] demo_holds (by decide) (by decide)
    (by decide)
    (by decide) (by decide) (by decide) (by decide)

end Flbwt
