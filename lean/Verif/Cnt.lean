import Mathlib.Data.List.Lex
import Mathlib.Tactic.Tauto
import Mathlib.Tactic.ByContra

/-!
# Counting positions below a bound (proof helper, not a model of code)
-/

namespace Flbwt

open Classical in
/-- number of `q < n` with `P q` -/
noncomputable def cnt (n : Nat) (P : Nat → Prop) : Nat :=
  match n with
  | 0 => 0
  | n + 1 => cnt n P + if P n then 1 else 0

theorem cnt_succ (n : Nat) (P : Nat → Prop) [Decidable (P n)] :
    cnt (n + 1) P = cnt n P + if P n then 1 else 0 := by
  rw [cnt]; congr

theorem cnt_le (n : Nat) (P : Nat → Prop) : cnt n P ≤ n := by
  induction n with
  | zero => simp [cnt]
  | succ n ih => rw [cnt]; split <;> omega

theorem cnt_mono {n : Nat} {P Q : Nat → Prop} (h : ∀ q < n, P q → Q q) : cnt n P ≤ cnt n Q := by
  induction n with
  | zero => simp [cnt]
  | succ n ih =>
    have := ih (fun q hq => h q (by omega))
    have h2 := h n (by omega)
    rw [cnt, cnt]
    split <;> split <;> first | omega | (exfalso; tauto)

theorem cnt_congr {n : Nat} {P Q : Nat → Prop} (h : ∀ q < n, (P q ↔ Q q)) : cnt n P = cnt n Q :=
  Nat.le_antisymm (cnt_mono fun q hq => (h q hq).1) (cnt_mono fun q hq => (h q hq).2)

theorem cnt_lt {n : Nat} {P Q : Nat → Prop} (h : ∀ q < n, P q → Q q) {x : Nat} (hx : x < n) (hq : Q x)
    (hp : ¬ P x) : cnt n P < cnt n Q := by
  induction n with
  | zero => omega
  | succ n ih =>
    have h1 := cnt_mono (n := n) (fun q hq => h q (by omega))
    have h2 := h n (by omega)
    rw [cnt, cnt]
    by_cases hxn : x = n
    · subst hxn; rw [if_pos hq, if_neg hp]; omega
    · have := ih (fun q hq => h q (by omega)) (by omega)
      split <;> split <;> first | omega | (exfalso; tauto)

theorem cnt_or {n : Nat} {P Q R : Nat → Prop} (h : ∀ q < n, (R q ↔ P q ∨ Q q)) (hd : ∀ q < n, ¬ (P q ∧ Q q)) :
    cnt n R = cnt n P + cnt n Q := by
  induction n with
  | zero => simp [cnt]
  | succ n ih =>
    have h1 := ih (fun q hq => h q (by omega)) (fun q hq => hd q (by omega))
    have h2 := h n (by omega)
    have h3 := hd n (by omega)
    rw [cnt, cnt, cnt]
    split <;> split <;> split <;> first | omega | (exfalso; tauto)

theorem cnt_false {n : Nat} {P : Nat → Prop} (h : ∀ q < n, ¬ P q) : cnt n P = 0 := by
  induction n with
  | zero => simp [cnt]
  | succ n ih =>
    rw [cnt, ih (fun q hq => h q (by omega)), if_neg (h n (by omega))]

theorem cnt_true {n : Nat} {P : Nat → Prop} (h : ∀ q < n, P q) : cnt n P = n := by
  induction n with
  | zero => simp [cnt]
  | succ n ih =>
    rw [cnt, ih (fun q hq => h q (by omega)), if_pos (h n (by omega))]

theorem cnt_single {n x : Nat} (hx : x < n) : cnt n (fun q => q = x) = 1 := by
  induction n with
  | zero => omega
  | succ n ih =>
    rw [cnt]
    by_cases h : n = x
    · subst h; rw [if_pos rfl, cnt_false]; omega
    · rw [if_neg h, ih (by omega)]

theorem cnt_insert {n : Nat} {P Q : Nat → Prop} {x : Nat} (hx : x < n) (h : ∀ q < n, (Q q ↔ P q ∨ q = x))
    (hp : ¬ P x) : cnt n Q = cnt n P + 1 := by
  rw [cnt_or (P := P) (Q := fun q => q = x) h, cnt_single hx]
  rintro q hq ⟨h1, rfl⟩
  exact hp h1

theorem cnt_pos {n : Nat} {P : Nat → Prop} {x : Nat} (hx : x < n) (hp : P x) : 0 < cnt n P := by
  have := cnt_lt (n := n) (P := fun _ => False) (Q := P) (by simp) hx hp (by simp)
  omega

theorem exists_of_cnt_pos {n : Nat} {P : Nat → Prop} (h : 0 < cnt n P) : ∃ x < n, P x := by
  by_contra hc
  rw [cnt_false (fun q hq hp => hc ⟨q, hq, hp⟩)] at h
  omega

theorem cnt_lt_of_not {n : Nat} {P : Nat → Prop} {x : Nat} (hx : x < n) (hp : ¬ P x) : cnt n P < n := by
  have := cnt_lt (n := n) (P := P) (Q := fun _ => True) (by simp) hx trivial hp
  rwa [cnt_true (P := fun _ => True) (by simp)] at this

/-- extending the bound beyond the support does not matter -/
theorem cnt_bound {n m : Nat} (hnm : n ≤ m) {P : Nat → Prop} (h : ∀ q, n ≤ q → q < m → ¬ P q) : cnt m P = cnt n P := by
  induction m with
  | zero => have : n = 0 := by omega
            rw [this]
  | succ m ih =>
    by_cases hn : n = m + 1
    · rw [hn]
    · rw [cnt, if_neg (h m (by omega) (by omega)), ih (by omega) (fun q h1 h2 => h q h1 (by omega))]
      omega

/-- an injection from the positions satisfying `P` to those satisfying `Q` -/
theorem cnt_inj_le {n m : Nat} {P Q : Nat → Prop} (f : Nat → Nat)
    (hf : ∀ q < n, P q → f q < m ∧ Q (f q)) (hinj : ∀ a < n, ∀ b < n, P a → P b → f a = f b → a = b) :
    cnt n P ≤ cnt m Q := by
  induction n generalizing Q with
  | zero => simp [cnt]
  | succ n ih =>
    by_cases hp : P n
    · rw [cnt, if_pos hp]
      have h1 := hf n (by omega) hp
      have h2 := ih (Q := fun q => Q q ∧ q ≠ f n) (fun q hq hpq => by
        have h3 := hf q (by omega) hpq
        refine ⟨h3.1, h3.2, fun he => ?_⟩
        have := hinj q (by omega) n (by omega) hpq hp he
        omega) (fun a ha b hb => hinj a (by omega) b (by omega))
      have h3 : cnt m Q = cnt m (fun q => Q q ∧ q ≠ f n) + 1 := by
        refine cnt_insert h1.1 (fun q hq => ?_) (by simp)
        constructor
        · intro h; by_cases he : q = f n
          · exact Or.inr he
          · exact Or.inl ⟨h, he⟩
        · rintro (h | rfl)
          · exact h.1
          · exact h1.2
      omega
    · rw [cnt, if_neg hp]
      exact ih (fun q hq => hf q (by omega)) (fun a ha b hb => hinj a (by omega) b (by omega))

/-- pigeonhole: an injection of `[0,n)` into itself is onto -/
theorem inj_surj {n : Nat} (f : Nat → Nat) (hf : ∀ q < n, f q < n)
    (hinj : ∀ a < n, ∀ b < n, f a = f b → a = b) : ∀ x < n, ∃ p < n, f p = x := by
  intro x hx
  by_contra hc
  have h1 := cnt_inj_le (n := n) (m := n) (P := fun _ => True) (Q := fun q => q ≠ x) f
    (fun q hq _ => ⟨hf q hq, fun he => hc ⟨q, hq, he⟩⟩) (fun a ha b hb _ _ => hinj a ha b hb)
  rw [cnt_true (by simp)] at h1
  have := cnt_lt_of_not (n := n) (P := fun q => q ≠ x) hx (by simp)
  omega

end Flbwt
