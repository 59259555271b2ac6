import Verif.Base

/-!
# Which errors a computation can end with (proof helper, not a model of code)
-/

namespace Flbwt

/-- `m` ends normally in a value satisfying `Q` or with an error satisfying `P`. -/
def ErrIn {α : Type _} (P : Err → Prop) (m : M α) (Q : α → Prop) : Prop :=
  match m with
  | .ok a => Q a
  | .error e => P e

section
variable {α β σ : Type _} {P : Err → Prop}

theorem ErrIn.ok {a : α} {Q : α → Prop} (h : Q a) : ErrIn P (.ok a) Q := h
theorem ErrIn.err {e : Err} {Q : α → Prop} (h : P e) : ErrIn P (.error e : M α) Q := h

theorem ErrIn.bind {m : M α} {f : α → M β} {Q : α → Prop} {R : β → Prop} (h : ErrIn P m Q)
    (hf : ∀ a, Q a → ErrIn P (f a) R) : ErrIn P (m >>= f) R := by
  cases m with
  | ok a => exact hf a h
  | error e => exact h

theorem ErrIn.map {m : M α} {f : α → β} {Q : β → Prop} (h : ErrIn P m (fun a => Q (f a))) : ErrIn P (f <$> m) Q := by
  cases m with
  | ok a => exact h
  | error e => exact h

theorem ErrIn.mono {m : M α} {Q R : α → Prop} (h : ErrIn P m Q) (hr : ∀ a, Q a → R a) : ErrIn P m R := by
  cases m with
  | ok a => exact hr a h
  | error e => exact h

theorem Tot.errIn {m : M α} {Q : α → Prop} (h : Tot m Q) : ErrIn P m Q := by
  cases m with
  | ok a => exact h
  | error e => exact absurd h (by simp)

theorem ErrIn.rd {m : Mem α} {i : Nat} (h : P (.ub .outOfBounds)) : ErrIn P (m.rd i) (fun a => i < m.size ∧ a = m.data i) := by
  unfold Mem.rd
  split
  · exact ⟨by assumption, rfl⟩
  · exact h

theorem ErrIn.wr {m : Mem α} {i : Nat} {v : α} (h : P (.ub .outOfBounds)) :
    ErrIn P (m.wr i v) (fun a => i < m.size ∧ a = m.upd i v) := by
  unfold Mem.wr
  split
  · exact ⟨by assumption, rfl⟩
  · exact h

theorem ErrIn.ite {c : Prop} [Decidable c] {a b : M α} {Q : α → Prop} (h1 : c → ErrIn P a Q) (h2 : ¬ c → ErrIn P b Q) :
    ErrIn P (if c then a else b) Q := by
  split
  · exact h1 (by assumption)
  · exact h2 (by assumption)

theorem ErrIn.loopUp (Inv : Nat → σ → Prop) (lo cnt : Nat) (s : σ) (f : Nat → σ → M σ) (h0 : Inv lo s)
    (hs : ∀ i s, lo ≤ i → i < lo + cnt → Inv i s → ErrIn P (f i s) (Inv (i + 1))) :
    ErrIn P (loopUp lo cnt s f) (Inv (lo + cnt)) := by
  induction cnt generalizing lo s with
  | zero => simpa [Flbwt.loopUp] using ErrIn.ok h0
  | succ c ih =>
    simp only [Flbwt.loopUp]
    refine (hs lo s (Nat.le_refl _) (by omega) h0).bind ?_
    intro s' h'
    have := ih (lo + 1) s' h' (fun i t h1 h2 h3 => hs i t (by omega) (by omega) h3)
    rwa [show lo + (c + 1) = lo + 1 + c from by omega]

theorem ErrIn.loopDown (Inv : Nat → σ → Prop) (hi : Nat) (s : σ) (f : Nat → σ → M σ) (h0 : Inv hi s)
    (hs : ∀ i s, i < hi → Inv (i + 1) s → ErrIn P (f i s) (Inv i)) :
    ErrIn P (loopDown hi s f) (Inv 0) := by
  induction hi generalizing s with
  | zero => simpa [Flbwt.loopDown] using ErrIn.ok h0
  | succ c ih =>
    simp only [Flbwt.loopDown]
    refine (hs c s (by omega) h0).bind ?_
    intro s' h'
    exact ih s' h' (fun i t h1 h2 => hs i t (by omega) h2)

theorem ErrIn.whileM (Q : β → Prop) (fuel : Nat) (s : σ) (f : σ → M (σ ⊕ β)) (hd : P (.ub .diverge))
    (hs : ∀ s, ErrIn P (f s) (fun r => match r with | .inl _ => True | .inr b => Q b)) :
    ErrIn P (whileM fuel s f) Q := by
  induction fuel generalizing s with
  | zero => exact hd
  | succ c ih =>
    simp only [Flbwt.whileM]
    refine (hs s).bind ?_
    intro r hr
    cases r with
    | inl s' => exact ih s'
    | inr b => exact hr

/-- A loop whose last iteration cannot succeed. -/
theorem ErrIn.loopUp_false (Inv : σ → Prop) (lo cnt : Nat) (s : σ) (f : Nat → σ → M σ) (h0 : Inv s)
    (hs : ∀ i s, lo ≤ i → i < lo + cnt → Inv s → ErrIn P (f i s) Inv)
    (hl : ∀ s, Inv s → ErrIn P (f (lo + cnt) s) (fun _ => False)) (Q : σ → Prop) :
    ErrIn P (Flbwt.loopUp lo (cnt + 1) s f) Q := by
  induction cnt generalizing lo s with
  | zero =>
    simp only [Flbwt.loopUp]
    exact (hl s h0).bind (fun a h => h.elim)
  | succ c ih =>
    rw [Flbwt.loopUp]
    refine (hs lo s (Nat.le_refl _) (by omega) h0).bind ?_
    intro s' h'
    exact ih (lo + 1) s' h' (fun i t h1 h2 h3 => hs i t (by omega) (by omega) h3)
      (fun t ht => by rw [show lo + 1 + c = lo + (c + 1) from by omega]; exact hl t ht)

end

end Flbwt
