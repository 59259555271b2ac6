import Verif.Base
import Mathlib.Tactic.Ring
import Mathlib.Data.List.Perm.Subperm

/-!
# Counting loop iterations

`TM α`: a computation of the model together with the number of loop iterations it performed. The counting versions of
the loops (`loopUpT`, `loopDownT`, `whileT`) add one per iteration; everything else is free. Between two loop iterations
the code executes a bounded number of elementary operations, so the number of iterations is the running time up to a
constant factor.

`erase` forgets the counter; every counting function of `TimeModel.lean` is proved to erase to the function it counts.
-/

namespace Flbwt

/-- A computation with a counter. Infrastructure: models no code. -/
def TM (α : Type _) := M (α × Nat)

namespace TM
variable {α β σ : Type _}

/-- forget the counter. Infrastructure: models no code. -/
def erase (x : TM α) : M α := match x with
  | .ok r => .ok r.1
  | .error e => .error e

/-- sequencing adds the counters. Infrastructure: models no code. -/
def bind' (x : TM α) (f : α → TM β) : TM β := match x with
  | .ok r => match f r.1 with
    | .ok q => .ok (q.1, r.2 + q.2)
    | .error e => .error e
  | .error e => .error e

/-- Infrastructure: models no code. -/
instance : Monad TM where
  pure a := .ok (a, 0)
  bind := bind'

/-- a computation without loops. Infrastructure: models no code. -/
def lift (x : M α) : TM α := match x with
  | .ok a => .ok (a, 0)
  | .error e => .error e

/-- one more iteration. Infrastructure: models no code. -/
def tick (x : TM α) : TM α := match x with
  | .ok r => .ok (r.1, r.2 + 1)
  | .error e => .error e

/-- The computation does not perform more than `b` iterations (if it ends normally). Used in proofs only. -/
def CostLe (x : TM α) (b : Nat) : Prop := ∀ r, x = .ok r → r.2 ≤ b

/-! ## Erasing -/

@[simp] theorem erase_pure (a : α) : erase (pure a : TM α) = .ok a := rfl
@[simp] theorem erase_lift (x : M α) : erase (lift x) = x := by cases x <;> rfl
@[simp] theorem erase_tick (x : TM α) : erase (tick x) = erase x := by cases x <;> rfl

theorem erase_bind (x : TM α) (f : α → TM β) : erase (x >>= f) = erase x >>= fun a => erase (f a) := by
  show erase (bind' x f) = _
  cases x with
  | error e => rfl
  | ok r =>
    unfold bind'
    show _ = erase (f r.1)
    simp only
    cases f r.1 <;> rfl

theorem erase_ite {c : Prop} [Decidable c] (x y : TM α) : erase (if c then x else y) = if c then erase x else erase y := by
  split <;> rfl

theorem erase_ok {x : TM α} {r : α × Nat} (h : x = .ok r) : erase x = .ok r.1 := by subst h; rfl

/-! ## Bounds -/

theorem CostLe.mono {x : TM α} {a b : Nat} (h : CostLe x a) (hab : a ≤ b) : CostLe x b := fun r hr => le_trans (h r hr) hab

theorem CostLe.pure (a : α) (b : Nat) : CostLe (Pure.pure a : TM α) b := by
  intro r hr
  cases hr
  exact Nat.zero_le _

theorem CostLe.lift (x : M α) (b : Nat) : CostLe (TM.lift x) b := by
  intro r hr
  cases x with
  | error e => cases hr
  | ok a => cases hr; exact Nat.zero_le _

theorem CostLe.tick {x : TM α} {b : Nat} (h : CostLe x b) : CostLe (TM.tick x) (b + 1) := by
  intro r hr
  cases x with
  | error e => cases hr
  | ok a => cases hr; exact Nat.succ_le_succ (h a rfl)

/-- Sequencing, using a property of the intermediate value. -/
theorem CostLe.bindV {x : TM α} {f : α → TM β} {P : α → Prop} {a b : Nat} (hP : Tot (erase x) P) (hx : CostLe x a)
    (hf : ∀ v, P v → CostLe (f v) b) : CostLe (x >>= f) (a + b) := by
  intro r hr
  change bind' x f = _ at hr
  cases x with
  | error e => cases hr
  | ok v =>
    unfold bind' at hr
    simp only at hr
    cases hq : f v.1 with
    | error e => rw [hq] at hr; cases hr
    | ok q =>
      rw [hq] at hr
      cases hr
      exact Nat.add_le_add (hx v rfl) (hf v.1 hP q hq)

theorem CostLe.bind {x : TM α} {f : α → TM β} {a b : Nat} (hx : CostLe x a)
    (hf : ∀ v, CostLe (f v) b) : CostLe (x >>= f) (a + b) := by
  intro r hr
  cases h : x with
  | error e => rw [h] at hr; cases hr
  | ok v => exact CostLe.bindV (P := fun _ => True) (by rw [erase_ok h]; trivial) hx (fun v _ => hf v) r hr

/-- Sequencing, knowing that the first computation ended normally. -/
theorem CostLe.bindE {x : TM α} {f : α → TM β} {a b : Nat} (hx : CostLe x a)
    (hf : ∀ v, erase x = .ok v → CostLe (f v) b) : CostLe (x >>= f) (a + b) := by
  intro r hr
  cases h : x with
  | error e => rw [h] at hr; cases hr
  | ok v =>
    exact CostLe.bindV (P := fun u => erase x = .ok u) (by rw [erase_ok h]; rfl) hx hf r hr

theorem CostLe.ite {c : Prop} [Decidable c] {x y : TM α} {b : Nat} (hx : CostLe x b) (hy : CostLe y b) :
    CostLe (if c then x else y) b := by split <;> assumption

end TM

open TM

/-! ## Loops -/

/-- `for (i = lo; i < lo + cnt; ++i) body`. Infrastructure: models no code. -/
def loopUpT {σ : Type _} (lo : Nat) : Nat → σ → (Nat → σ → TM σ) → TM σ
  | 0, s, _ => pure s
  | cnt + 1, s, f => tick (f lo s >>= fun s' => loopUpT (lo + 1) cnt s' f)

/-- `for (i = hi - 1; i >= 0; --i) body`. Infrastructure: models no code. -/
def loopDownT {σ : Type _} : Nat → σ → (Nat → σ → TM σ) → TM σ
  | 0, s, _ => pure s
  | hi + 1, s, f => tick (f hi s >>= fun s' => loopDownT hi s' f)

/-- `while` loop; the test that ends the loop counts as an iteration. Infrastructure: models no code. -/
def whileT {σ β : Type _} : Nat → σ → (σ → TM (σ ⊕ β)) → TM β
  | 0, _, _ => lift (.error (.ub .diverge))
  | fuel + 1, s, f => tick (f s >>= fun r =>
      match r with
      | .inl s' => whileT fuel s' f
      | .inr b => pure b)

section
variable {σ β : Type _}

theorem erase_loopUpT (lo cnt : Nat) (s : σ) (f : Nat → σ → TM σ) :
    erase (loopUpT lo cnt s f) = loopUp lo cnt s (fun i s => erase (f i s)) := by
  induction cnt generalizing lo s with
  | zero => rfl
  | succ c ih =>
    unfold loopUpT loopUp
    rw [erase_tick, erase_bind]
    congr 1; funext s'; exact ih _ _

theorem erase_loopDownT (hi : Nat) (s : σ) (f : Nat → σ → TM σ) :
    erase (loopDownT hi s f) = loopDown hi s (fun i s => erase (f i s)) := by
  induction hi generalizing s with
  | zero => rfl
  | succ c ih =>
    unfold loopDownT loopDown
    rw [erase_tick, erase_bind]
    congr 1; funext s'; exact ih _

theorem erase_whileT (fuel : Nat) (s : σ) (f : σ → TM (σ ⊕ β)) :
    erase (whileT fuel s f) = whileM fuel s (fun s => erase (f s)) := by
  induction fuel generalizing s with
  | zero => rfl
  | succ c ih =>
    unfold whileT whileM
    rw [erase_tick, erase_bind]
    congr 1; funext r
    cases r with
    | inl s' => exact ih _
    | inr b => rfl

/-- sum of `w` over `lo, …, lo + cnt - 1`. Used in proofs only. -/
def sumUp (w : Nat → Nat) (lo : Nat) : Nat → Nat
  | 0 => 0
  | cnt + 1 => w lo + sumUp w (lo + 1) cnt

theorem sumUp_const (b lo cnt : Nat) : sumUp (fun _ => b) lo cnt = cnt * b := by
  induction cnt generalizing lo with
  | zero => simp [sumUp]
  | succ c ih => rw [sumUp, ih]; ring

theorem sumUp_succ (w : Nat → Nat) (lo cnt : Nat) : sumUp w lo (cnt + 1) = sumUp w lo cnt + w (lo + cnt) := by
  induction cnt generalizing lo with
  | zero => simp [sumUp]
  | succ c ih => rw [sumUp, ih, sumUp]; rw [show lo + 1 + c = lo + (c + 1) by omega]; omega

theorem CostLe.loopUpI (Inv : Nat → σ → Prop) (w : Nat → Nat) (lo cnt : Nat) (s : σ) (f : Nat → σ → TM σ) (h0 : Inv lo s)
    (hs : ∀ i s, lo ≤ i → i < lo + cnt → Inv i s → Tot (erase (f i s)) (Inv (i + 1)) ∧ CostLe (f i s) (w i)) :
    CostLe (loopUpT lo cnt s f) (cnt + sumUp w lo cnt) := by
  induction cnt generalizing lo s with
  | zero => exact CostLe.pure _ _
  | succ c ih =>
    unfold loopUpT
    obtain ⟨h1, h2⟩ := hs lo s (Nat.le_refl _) (by omega) h0
    have := (CostLe.bindV (f := fun s' => loopUpT (lo + 1) c s' f) h1 h2
      (fun v hv => ih (lo + 1) v hv (fun i s a b => hs i s (by omega) (by omega)))).tick
    exact this.mono (by rw [sumUp]; omega)

theorem CostLe.loopUp {lo cnt : Nat} {s : σ} {f : Nat → σ → TM σ} {b : Nat} (hs : ∀ i s, CostLe (f i s) b) :
    CostLe (loopUpT lo cnt s f) (cnt * (b + 1)) := by
  induction cnt generalizing lo s with
  | zero => exact CostLe.pure _ _
  | succ c ih =>
    unfold loopUpT
    exact ((CostLe.bind (hs lo s) (fun v => ih)).tick).mono (by ring_nf; omega)

theorem CostLe.loopDown {hi : Nat} {s : σ} {f : Nat → σ → TM σ} {b : Nat} (hs : ∀ i s, CostLe (f i s) b) :
    CostLe (loopDownT hi s f) (hi * (b + 1)) := by
  induction hi generalizing s with
  | zero => exact CostLe.pure _ _
  | succ c ih =>
    unfold loopDownT
    exact ((CostLe.bind (hs c s) (fun v => ih)).tick).mono (by ring_nf; omega)

theorem CostLe.loopDownI (Inv : Nat → σ → Prop) (w : Nat → Nat) (hi : Nat) (s : σ) (f : Nat → σ → TM σ) (h0 : Inv hi s)
    (hs : ∀ i s, i < hi → Inv (i + 1) s → Tot (erase (f i s)) (Inv i) ∧ CostLe (f i s) (w i)) :
    CostLe (loopDownT hi s f) (hi + sumUp w 0 hi) := by
  induction hi generalizing s with
  | zero => exact CostLe.pure _ _
  | succ c ih =>
    unfold loopDownT
    obtain ⟨h1, h2⟩ := hs c s (by omega) h0
    have := (CostLe.bindV (f := fun s' => loopDownT c s' f) h1 h2
      (fun v hv => ih v hv (fun i s a => hs i s (by omega)))).tick
    refine this.mono ?_
    rw [sumUp_succ, Nat.zero_add]; omega

/-- A `while` loop that ends with less fuel does not perform more iterations. -/
theorem CostLe.whileF {fuel f0 : Nat} {s : σ} {f : σ → TM (σ ⊕ β)} {b : Nat} (hs : ∀ s, CostLe (f s) b)
    (h : Tot (whileM f0 s (fun s => erase (f s))) (fun _ => True)) : CostLe (whileT fuel s f) (f0 * (b + 1)) := by
  induction f0 generalizing fuel s with
  | zero => exact h.elim
  | succ f0 ih =>
    cases fuel with
    | zero => exact CostLe.lift _ _
    | succ fuel =>
      unfold whileT
      unfold whileM at h
      rw [Tot_bind] at h
      refine ((CostLe.bindV (b := f0 * (b + 1)) h (hs s) ?_).tick).mono (by ring_nf; omega)
      intro r hr
      cases r with
      | inl s' => exact ih hr
      | inr c => exact CostLe.pure _ _

/-- A `while` loop with a measure -/
theorem CostLe.whileI (Inv : σ → Prop) (meas : σ → Nat) {fuel : Nat} {s : σ} {f : σ → TM (σ ⊕ β)} {b : Nat}
    (hs : ∀ s, CostLe (f s) b) (h0 : Inv s)
    (h : ∀ s, Inv s → Tot (erase (f s)) (fun r => match r with
      | .inl s' => Inv s' ∧ meas s' < meas s
      | .inr _ => True)) : CostLe (whileT fuel s f) ((meas s + 1) * (b + 1)) :=
  CostLe.whileF hs (whileM_spec Inv meas (fun _ => True) (meas s + 1) s _ h0 (by omega) h)

end

/-- Intervals without common points inside `[0, n)` have total length at most `n`. -/
theorem disjoint_sum (a w : Nat → Nat) (n : Nat) : ∀ m, (∀ i, i < m → a i + w i ≤ n) →
    (∀ i j, i < m → j < m → i ≠ j → w i ≠ 0 → w j ≠ 0 → a i + w i ≤ a j ∨ a j + w j ≤ a i) → sumUp w 0 m ≤ n := by
  intro m h1 h2
  -- count the points
  have key : ∀ m', m' ≤ m → ∃ l : List Nat, l.Nodup ∧ l.length = sumUp w 0 m' ∧
      ∀ x ∈ l, x < n ∧ ∃ i, i < m' ∧ a i ≤ x ∧ x < a i + w i := by
    intro m'
    induction m' with
    | zero => intro _; exact ⟨[], List.nodup_nil, rfl, by simp⟩
    | succ m' ih =>
      intro hm
      obtain ⟨l, l1, l2, l3⟩ := ih (by omega)
      refine ⟨l ++ List.range' (a m') (w m'), ?_, ?_, ?_⟩
      · rw [List.nodup_append]
        refine ⟨l1, List.nodup_range', ?_⟩
        intro x hx y hy hxy
        subst hxy
        obtain ⟨_, i, hi, h3, h4⟩ := l3 x hx
        rw [List.mem_range'_1] at hy
        have := h2 i m' (by omega) (by omega) (by omega) (by omega) (by omega)
        omega
      · rw [List.length_append, l2, List.length_range', sumUp_succ, Nat.zero_add]
      · intro x hx
        rcases List.mem_append.1 hx with hx | hx
        · obtain ⟨h3, i, hi, h4⟩ := l3 x hx
          exact ⟨h3, i, by omega, h4⟩
        · rw [List.mem_range'_1] at hx
          have := h1 m' (by omega)
          exact ⟨by omega, m', by omega, hx⟩
  obtain ⟨l, l1, l2, l3⟩ := key m (Nat.le_refl _)
  rw [← l2]
  have hsub : l ⊆ List.range n := fun x hx => List.mem_range.2 (l3 x hx).1
  have := (List.Nodup.subperm l1 hsub).length_le
  simpa using this

end Flbwt
