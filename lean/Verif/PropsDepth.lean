import Verif.PropsSais
import Verif.PropsMisuse

/-!
# Property C28, second half: every nested call of `sais_XXbit` is on a string of less than half the length

The model of `sais` is run again with a log of the arguments `n` of all nested calls (outermost first); without the log
it is the same program (`saisLog_erase`).
-/

namespace Flbwt

open SaStore LawfulSaStore

variable {S : Type} [LawfulSaStore S]

/-- `sais_32bit` (src/sais32bit.cpp:155-353) and its 40, 48, 56 and 64 bit versions, as in `sais`, but returning also
the list of the lengths `n` of this call and of the calls nested in it (src/sais32bit.cpp:303), outermost first. -/
def saisLog (junk : Nat → Nat → BitVec 64) : Nat → Env → Nat → Nat → Nat → St S → M (St S × List Nat)
  | 0, _, _, _, _, _ => .error (.ub .diverge)
  | fuel + 1, e, fs, n, k, s => do
    let x ← stage1 (junk fuel) e fs n k s
    let y ← if x.2.2 < x.2.1 then do
        let s ← gatherNames n x.2.1 (n + fs - x.2.1) x.1
        let y ← saisLog junk fuel { e with txt := .ptr (n + fs - x.2.1), cs := width S } (fs + n - x.2.1 * 2) x.2.1 x.2.2 s
        let s ← afterRec e n x.2.1 (n + fs - x.2.1) y.1
        .ok (s, y.2)
      else .ok (x.1, [])
    let s ← stage3 (junk fuel) e fs n k x.2.1 y.1
    .ok (s, n :: y.2)

/-- without the log, `saisLog` is `sais` -/
theorem saisLog_erase (junk : Nat → Nat → BitVec 64) (fuel : Nat) (e : Env) (fs n k : Nat) (s : St S) :
    (saisLog junk fuel e fs n k s).map Prod.fst = sais junk fuel e fs n k s := by
  induction fuel generalizing e fs n k s with
  | zero => rfl
  | succ fuel ih =>
    unfold saisLog sais
    cases stage1 (junk fuel) e fs n k s with
    | error f => rfl
    | ok x =>
      obtain ⟨s1, m, name⟩ := x
      simp only [HashTable.ok_bind]
      by_cases h : name < m
      · simp only [if_pos h]
        cases gatherNames n m (n + fs - m) s1 with
        | error f => rfl
        | ok s2 =>
          simp only [HashTable.ok_bind]
          rw [← ih]
          cases saisLog junk fuel { e with txt := .ptr (n + fs - m), cs := width S } (fs + n - m * 2) m name s2 with
          | error f => rfl
          | ok y =>
            show _ = ((afterRec e n m (n + fs - m) y.1).bind _)
            cases h3 : afterRec e n m (n + fs - m) y.1 with
            | error f => simp [HashTable.ok_bind, h3]; rfl
            | ok s3 =>
              simp only [HashTable.ok_bind, h3]
              show _ = stage3 (junk fuel) e fs n k m s3
              cases stage3 (junk fuel) e fs n k m s3 <;> rfl
      · simp only [if_neg h]
        cases stage3 (junk fuel) e fs n k m s1 <;> rfl

theorem saisLog_chain (junk : Nat → Nat → BitVec 64) (fuel : Nat) (e : Env) (fs n k : Nat) (s : St S) (T : Nat → Nat)
    (hn : 1 ≤ n) (hnw : (n : Int) < (2 : Int) ^ (width S - 1)) (hkw : (k : Int) ≤ (2 : Int) ^ (width S - 1))
    (hT : ∀ i, i < n → T i < k) (htxt : TextAt e s T n (n + fs)) (hsz : n + fs ≤ size s.sa) (y : St S × List Nat)
    (hy : saisLog junk fuel e fs n k s = .ok y) :
    ∃ l, y.2 = n :: l ∧ (n :: l).IsChain (fun a b => 2 * b < a) ∧ ∀ b ∈ n :: l, 1 ≤ b := by
  induction fuel generalizing e fs n k s T y with
  | zero => simp [saisLog] at hy
  | succ fuel ih =>
    have X : Ctx e s T (layOf n k fs) := ⟨layOf_ok n k fs, htxt, hT, hn, hnw, hkw⟩
    have h0 : Ra n (n + fs) s s (fun i => get s.sa i) := ⟨rfl, by omega, hsz, fun _ _ => rfl, fun _ _ => rfl⟩
    have hm := lmsN_le (T := T) hn
    unfold saisLog at hy
    obtain ⟨⟨s1, m, name⟩, e1, hmm, P, r, A1, h1, g, hname⟩ := Tot_iff.1 (stage1_spec (junk fuel) X h0)
    simp only at hmm h1 hname
    subst hmm
    rw [e1] at hy
    simp only [HashTable.ok_bind] at hy
    by_cases hlt : name < lmsN T n
    · rw [if_pos hlt] at hy
      have hm0 : lmsN T n ≠ 0 := by omega
      rw [if_neg hm0] at hname
      have hwide := h1.widen
      have hnames : Names T n P (fun p => (nmf T n P (r p) : Int)) (fun i => get s1.sa i) :=
        ⟨fun x hx => by rw [h1.a x (by omega)]; exact g.names.lo x hx,
         fun p hp => by rw [h1.a _ (half_lt hp)]; exact g.names.at_ p hp,
         fun x hx1 hx2 hx3 => by rw [h1.a x hx2]; exact g.names.zero x hx1 hx2 hx3⟩
      have hg := gatherNames_spec hwide hn hnames (fun p hp => ⟨nmf_pos _, by
        have := nmf_le (T := T) (n := n) (P := P) (r p)
        have := nmf_pos (T := T) (n := n) (P := P) (r p)
        have := (g.Pr p hp).1
        exact Fit.of_le hnw (by omega) (by omega)⟩)
      obtain ⟨s2, e2, A2, h2, hR⟩ := Tot_iff.1 hg
      rw [e2] at hy
      simp only [HashTable.ok_bind] at hy
      have hRle : ∀ a, a < lmsN T n → nmf T n P (r (lpos T n a)) ≤ name := by
        intro a ha
        rw [hname]
        have := (g.Pr _ (lpos_spec ha).1).1
        exact nmf_mono (by omega)
      have hRpos : ∀ a, 1 ≤ nmf T n P (r (lpos T n a)) := fun a => nmf_pos _
      obtain ⟨y3, hy3, hy⟩ := bind_ok_inv hy
      obtain ⟨s4, _, hy⟩ := bind_ok_inv hy
      obtain ⟨s5, _, hy⟩ := bind_ok_inv hy
      cases hy
      obtain ⟨l, k1, k2, k3⟩ := ih { e with txt := .ptr (n + fs - lmsN T n), cs := width S } (fs + n - lmsN T n * 2) (lmsN T n) name s2
        (fun a => nmf T n P (r (lpos T n a)) - 1) (by omega) (by omega) (by omega)
        (fun a ha => by have := hRle a ha; have := hRpos a; omega)
        (by
          refine ⟨rfl, by omega, by have := h2.sz; have := h2.hl; omega, fun a ha => ?_⟩
          rw [h2.a _ (by omega), hR a ha]
          have := hRpos a
          simp only
          omega)
        (by have := h2.sz; have := h2.hl; omega) y3 hy3
      refine ⟨lmsN T n :: l, by simp only [k1], List.IsChain.cons_cons (by omega) k2, ?_⟩
      intro b hb
      rcases List.mem_cons.1 hb with rfl | hb
      · exact hn
      · exact k3 b hb
    · rw [if_neg hlt] at hy
      obtain ⟨s5, _, hy⟩ := bind_ok_inv hy
      cases hy
      exact ⟨[], rfl, List.IsChain.singleton _, by simpa using hn⟩

theorem chain_length_lt : ∀ (l : List Nat) (f : Nat), l.IsChain (fun a b => 2 * b < a) → (∀ b ∈ l, 1 ≤ b) →
    (∀ a ∈ l.head?, a < 2 ^ f) → l.length ≤ f
  | [], f, _, _, _ => Nat.zero_le _
  | [a], f, _, h1, h2 => by
    have := h2 a rfl
    have := h1 a (by simp)
    rcases f with _ | f
    · simp at *; omega
    · simp
  | a :: b :: l, f, hc, h1, h2 => by
    have ha := h2 a rfl
    have hab := hc
    rw [List.isChain_cons_cons] at hab
    rcases f with _ | f
    · have := h1 a (by simp); simp at ha; omega
    · have := chain_length_lt (b :: l) f hab.2 (fun c hc => h1 c (List.mem_cons_of_mem _ hc)) (fun c hc => by
        cases hc; rw [Nat.pow_succ] at ha; omega)
      simp only [List.length_cons] at *
      omega

/-- C28 (halving): the call on a string of `n` characters terminates, every call nested in it (at any depth) is on a
nonempty string of less than half the length of the string of the call it is nested in, and there are at most
`⌊log2 n⌋ + 1` levels. All five widths. The log is of the same run: without it `saisLog` is `sais`. -/
theorem C28_recursive_calls_halve (junk : Nat → Nat → BitVec 64) (sj : BitVec 64)
    (pa : PackedArray) (sa : S) (fs k fuel : Nat) (text : List Nat) (htext : HoldsText sj pa text) (hn : text ≠ [])
    (hT : ∀ c ∈ text, c < k) (hcs : pa.bits ≠ width S) (hnw : text.length < 2 ^ (width S - 1))
    (hkw : k ≤ 2 ^ (width S - 1)) (hsz : text.length + fs ≤ size sa) (hf : text.length < 2 ^ fuel) :
    ∃ s' lens, saisCall junk sj pa sa fs text.length k fuel = .ok s' ∧
      saisLog junk fuel { txt := .packed pa.arr, cs := pa.bits, sj := sj } fs text.length k ⟨sa, fresh 0 (fun _ => 0)⟩ =
        .ok (s', lens) ∧
      lens.head? = some text.length ∧ lens.IsChain (fun outer inner => 2 * inner < outer) ∧ (∀ m ∈ lens, 1 ≤ m) ∧
      lens.length ≤ Nat.log2 text.length + 1 := by
  obtain ⟨s', e, _⟩ := Tot_iff.1 (saisCall_tot junk sj pa sa fs k fuel text hcs htext hn hnw hkw hT hsz hf)
  have hn1 : 1 ≤ text.length := by cases text; · exact absurd rfl hn
                                   · simp
  have er := saisLog_erase junk fuel { txt := .packed pa.arr, cs := pa.bits, sj := sj } fs text.length k
    (⟨sa, fresh 0 (fun _ => 0)⟩ : St S)
  unfold saisCall at e
  rw [e] at er
  obtain ⟨y, hy, hy'⟩ : ∃ y, saisLog junk fuel { txt := .packed pa.arr, cs := pa.bits, sj := sj } fs text.length k
      (⟨sa, fresh 0 (fun _ => 0)⟩ : St S) = .ok y ∧ y.1 = s' := by
    cases hl : saisLog junk fuel { txt := .packed pa.arr, cs := pa.bits, sj := sj } fs text.length k
      (⟨sa, fresh 0 (fun _ => 0)⟩ : St S) with
    | error f => rw [hl] at er; cases er
    | ok y => rw [hl] at er; cases er; exact ⟨y, rfl, rfl⟩
  obtain ⟨l, h1, h2, h3⟩ := saisLog_chain (S := S) junk fuel { txt := .packed pa.arr, cs := pa.bits, sj := sj } fs text.length k
    ⟨sa, fresh 0 (fun _ => 0)⟩ (fun i => text.getD i 0) hn1 (by exact_mod_cast hnw) (by exact_mod_cast hkw)
    (fun i hi => hT _ (by simp [hi]))
    ⟨hcs, fun i hi => by
      obtain ⟨v, h1, h2⟩ := htext i hi
      exact ⟨v, h1, by simp [h2, hi]⟩⟩ hsz y hy
  refine ⟨s', text.length :: l, e, ?_, rfl, h2, h3, ?_⟩
  · rw [hy, ← hy', ← h1]
  · exact chain_length_lt _ _ h2 h3 (fun a ha => by cases ha; exact Nat.lt_log2_self)

/-- the hypotheses are met: "2 1 2 1 0" in a packed array of width 3 -/
example : ∃ s' lens, saisCall (fun _ _ => 5) 0 demoPacked (⟨⟨5, fun _ => 77⟩⟩ : S32) 0 5 3 3 = .ok s' ∧
      saisLog (fun _ _ => 5) 3 { txt := .packed demoPacked.arr, cs := demoPacked.bits, sj := 0 } 0 5 3
        ⟨(⟨⟨5, fun _ => 77⟩⟩ : S32), fresh 0 (fun _ => 0)⟩ = .ok (s', lens) ∧
      lens.head? = some 5 ∧ lens.IsChain (fun outer inner => 2 * inner < outer) ∧ (∀ m ∈ lens, 1 ≤ m) ∧
      lens.length ≤ Nat.log2 5 + 1 :=
  C28_recursive_calls_halve _ 0 demoPacked (⟨⟨5, fun _ => 77⟩⟩ : S32) 0 3 3 [2, 1, 2, 1, 0] demo_holds (by decide) (by decide)
    (by decide) (by decide) (by decide) (by decide) (by decide)

/-- entries `9 1 0 1 0 1 0 1 0 1` of width 4 -/
def demoPacked2 : PackedArray := ⟨⟨1, fun _ => 0x9101010101#64 <<< 24⟩, 10, 4⟩

/-- the recursion does occur: on "101010101" there is a nested call, on the 4 names of the LMS positions 1, 3, 5, 7 -/
example : (match saisLog (fun _ _ => 5) 5 { txt := .packed demoPacked2.arr, cs := demoPacked2.bits, sj := 0 } 0 9 2
    ⟨(⟨⟨9, fun _ => 77⟩⟩ : S32), fresh 0 (fun _ => 0)⟩ with
    | .ok y => y.2
    | .error _ => []) = [9, 4] := by
  decide +kernel

end Flbwt
