/-!
# Base of the model: faults, checked memory, loops

Not a model of one particular source file: this file fixes how C++ execution is represented.
* `M α` : a computation that ends normally, throws a C++ exception, or has a fault (undefined behaviour,
  including non-termination).
* `Mem α` : a block obtained from `malloc`/`realloc`/`new[]`, with checked accesses.
* `loopUp`, `loopDown`, `whileM` : loops.
-/

namespace Flbwt

/-- Undefined behaviour the model distinguishes. -/
inductive Fault where
  | outOfBounds | nullDeref | divByZero | diverge | typeConfusion | badShift | uninit | overflow | badFree
  deriving DecidableEq, Repr

/-- C++ exceptions thrown by the code. -/
inductive Exc where
  | invalidArgument | runtimeError
  deriving DecidableEq, Repr

inductive Err where
  | ub (f : Fault) | throw (e : Exc)
  deriving DecidableEq, Repr

abbrev M := Except Err

/-- `Tot m Q`: the computation `m` ends normally (no fault, no exception) in a value satisfying `Q`. -/
def Tot {α : Type _} (m : M α) (Q : α → Prop) : Prop :=
  match m with
  | .ok a => Q a
  | .error _ => False

section Tot
variable {α β σ : Type _}

@[simp] theorem Tot_ok (a : α) (Q : α → Prop) : Tot (.ok a) Q ↔ Q a := Iff.rfl
@[simp] theorem Tot_pure (a : α) (Q : α → Prop) : Tot (pure a : M α) Q ↔ Q a := Iff.rfl
@[simp] theorem Tot_error (e : Err) (Q : α → Prop) : Tot (.error e) Q ↔ False := Iff.rfl
@[simp] theorem Tot_throw (e : Err) (Q : α → Prop) : Tot (throw e : M α) Q ↔ False := Iff.rfl

@[simp] theorem Tot_bind (m : M α) (f : α → M β) (Q : β → Prop) :
    Tot (m >>= f) Q ↔ Tot m (fun a => Tot (f a) Q) := by
  cases m <;> rfl

@[simp] theorem Tot_map (m : M α) (f : α → β) (Q : β → Prop) :
    Tot (f <$> m) Q ↔ Tot m (fun a => Q (f a)) := by
  cases m <;> rfl

theorem Tot_ite {c : Prop} [Decidable c] (a b : M α) (Q : α → Prop) :
    Tot (if c then a else b) Q ↔ (c → Tot a Q) ∧ (¬c → Tot b Q) := by
  split <;> simp_all

theorem Tot.mono {m : M α} {Q R : α → Prop} (h : Tot m Q) (hr : ∀ a, Q a → R a) : Tot m R := by
  cases m with
  | ok a => exact hr a h
  | error e => exact h

theorem Tot.and {m : M α} {Q R : α → Prop} (h : Tot m Q) (h' : Tot m R) :
    Tot m (fun a => Q a ∧ R a) := by
  cases m with
  | ok a => exact ⟨h, h'⟩
  | error e => exact h

theorem Tot.bind {m : M α} {f : α → M β} {Q : α → Prop} {R : β → Prop} (h : Tot m Q)
    (hr : ∀ a, Q a → Tot (f a) R) : Tot (m >>= f) R := by
  rw [Tot_bind]; exact h.mono hr

theorem Tot_iff {m : M α} {Q : α → Prop} : Tot m Q ↔ ∃ a, m = .ok a ∧ Q a := by
  cases m with
  | ok a => simp
  | error e => simp

/-- Results are unique: two facts about the same run concern the same value. -/
theorem Tot.eq_ok {m : M α} {a : α} (h : Tot m (fun x => x = a)) : m = .ok a := by
  cases m with
  | ok b => simp at h; rw [h]
  | error e => simp at h

end Tot

/-- A memory block. -/
structure Mem (α : Type _) where
  size : Nat
  data : Nat → α

namespace Mem
variable {α : Type _}

/-- checked read -/
def rd (m : Mem α) (i : Nat) : M α :=
  if i < m.size then .ok (m.data i) else .error (.ub .outOfBounds)

/-- functional update (unchecked; only used through `wr`) -/
def upd (m : Mem α) (i : Nat) (v : α) : Mem α :=
  { m with data := fun j => if j = i then v else m.data j }

/-- checked write -/
def wr (m : Mem α) (i : Nat) (v : α) : M (Mem α) :=
  if i < m.size then .ok (m.upd i v) else .error (.ub .outOfBounds)

@[simp] theorem upd_size (m : Mem α) (i : Nat) (v : α) : (m.upd i v).size = m.size := rfl
theorem upd_data (m : Mem α) (i j : Nat) (v : α) :
    (m.upd i v).data j = if j = i then v else m.data j := rfl
@[simp] theorem upd_data_self (m : Mem α) (i : Nat) (v : α) : (m.upd i v).data i = v := by
  simp [upd]
theorem upd_data_ne (m : Mem α) {i j : Nat} (v : α) (h : j ≠ i) :
    (m.upd i v).data j = m.data j := by simp [upd, h]

theorem Tot_rd (m : Mem α) (i : Nat) (Q : α → Prop) :
    Tot (m.rd i) Q ↔ i < m.size ∧ Q (m.data i) := by
  unfold rd; split <;> simp [*]

theorem Tot_wr (m : Mem α) (i : Nat) (v : α) (Q : Mem α → Prop) :
    Tot (m.wr i v) Q ↔ i < m.size ∧ Q (m.upd i v) := by
  unfold wr; split <;> simp [*]

theorem rd_ok (m : Mem α) {i : Nat} (h : i < m.size) : m.rd i = .ok (m.data i) := by
  simp [rd, h]
theorem wr_ok (m : Mem α) {i : Nat} (v : α) (h : i < m.size) : m.wr i v = .ok (m.upd i v) := by
  simp [wr, h]

end Mem

/-- `a - b` on `uint64_t` -/
@[irreducible] def subU64 (a b : Nat) : Nat := if b ≤ a then a - b else 2 ^ 64 + a - b

theorem subU64_eq {a b : Nat} (h : b ≤ a) : subU64 a b = a - b := by unfold subU64; rw [if_pos h]

/-- a (small) integer converted to `uint64_t` -/
@[irreducible] def toU64 (x : Int) : Nat := if 0 ≤ x then x.toNat else (2 ^ 64 + x).toNat

theorem toU64_eq {x : Int} (h : 0 ≤ x) : toU64 x = x.toNat := by unfold toU64; rw [if_pos h]

/-- `a + b` on `uint64_t` -/
@[irreducible] def addU64 (a b : Nat) : Nat := if a + b < 2 ^ 64 then a + b else a + b - 2 ^ 64

theorem addU64_eq {a b : Nat} (h : a + b < 2 ^ 64) : addU64 a b = a + b := by unfold addU64; rw [if_pos h]

/-- a `uint64_t` converted to `int64_t` -/
@[irreducible] def toI64 (x : Int) : Int := if x < 2 ^ 63 then x else x - 2 ^ 64

theorem toI64_eq {x : Int} (h : x < 2 ^ 63) : toI64 x = x := by unfold toI64; rw [if_pos h]

/-- `a + b` on `int64_t`; signed overflow is undefined -/
def addI64 (a b : Int) : M Int :=
  if -(2 : Int) ^ 63 ≤ a + b ∧ a + b < (2 : Int) ^ 63 then .ok (a + b) else .error (.ub .overflow)

theorem addI64_ok {a b : Int} (h1 : -(2 : Int) ^ 63 ≤ a + b) (h2 : a + b < (2 : Int) ^ 63) : addI64 a b = .ok (a + b) := by
  unfold addI64; rw [if_pos ⟨h1, h2⟩]

/-- `for (i = lo; i < lo + cnt; ++i) body` -/
def loopUp {σ : Type _} (lo : Nat) : Nat → σ → (Nat → σ → M σ) → M σ
  | 0, s, _ => .ok s
  | cnt + 1, s, f => f lo s >>= fun s' => loopUp (lo + 1) cnt s' f

/-- `for (i = hi - 1; i >= 0; --i) body` -/
def loopDown {σ : Type _} : Nat → σ → (Nat → σ → M σ) → M σ
  | 0, s, _ => .ok s
  | hi + 1, s, f => f hi s >>= fun s' => loopDown hi s' f

/-- `while` loop: the step either continues with a new state or exits with a result.
Running out of fuel is the fault `diverge`. -/
def whileM {σ β : Type _} : Nat → σ → (σ → M (σ ⊕ β)) → M β
  | 0, _, _ => .error (.ub .diverge)
  | fuel + 1, s, f => f s >>= fun r =>
      match r with
      | .inl s' => whileM fuel s' f
      | .inr b => .ok b

section Loops
variable {σ β : Type _}

theorem loopUp_spec (Inv : Nat → σ → Prop) (lo cnt : Nat) (s : σ) (f : Nat → σ → M σ)
    (h0 : Inv lo s)
    (hs : ∀ i s, lo ≤ i → i < lo + cnt → Inv i s → Tot (f i s) (Inv (i + 1))) :
    Tot (loopUp lo cnt s f) (Inv (lo + cnt)) := by
  induction cnt generalizing lo s with
  | zero => simpa [loopUp] using h0
  | succ c ih =>
    simp only [loopUp, Tot_bind]
    refine (hs lo s (Nat.le_refl _) (by omega) h0).mono ?_
    intro s' h'
    have := ih (lo + 1) s' h' (fun i t h1 h2 h3 => hs i t (by omega) (by omega) h3)
    rwa [show lo + (c + 1) = lo + 1 + c from by omega]

theorem loopDown_spec (Inv : Nat → σ → Prop) (hi : Nat) (s : σ) (f : Nat → σ → M σ)
    (h0 : Inv hi s)
    (hs : ∀ i s, i < hi → Inv (i + 1) s → Tot (f i s) (Inv i)) :
    Tot (loopDown hi s f) (Inv 0) := by
  induction hi generalizing s with
  | zero => simpa [loopDown] using h0
  | succ c ih =>
    simp only [loopDown, Tot_bind]
    refine (hs c s (by omega) h0).mono ?_
    intro s' h'
    exact ih s' h' (fun i t h1 h2 => hs i t (by omega) h2)

theorem whileM_spec (Inv : σ → Prop) (meas : σ → Nat) (Q : β → Prop) (fuel : Nat) (s : σ)
    (f : σ → M (σ ⊕ β)) (h0 : Inv s) (hf : meas s < fuel)
    (hs : ∀ s, Inv s → Tot (f s) (fun r => match r with
      | .inl s' => Inv s' ∧ meas s' < meas s
      | .inr b => Q b)) :
    Tot (whileM fuel s f) Q := by
  induction fuel generalizing s with
  | zero => omega
  | succ c ih =>
    simp only [whileM, Tot_bind]
    refine (hs s h0).mono ?_
    intro r hr
    cases r with
    | inl s' => exact ih s' hr.1 (by have := hr.2; omega)
    | inr b => exact hr

/-- More fuel does not change a result. -/
theorem whileM_fuel_mono (fuel fuel' : Nat) (s : σ) (f : σ → M (σ ⊕ β)) (b : β)
    (h : whileM fuel s f = .ok b) (hle : fuel ≤ fuel') : whileM fuel' s f = .ok b := by
  induction fuel generalizing fuel' s with
  | zero => simp [whileM] at h
  | succ c ih =>
    cases fuel' with
    | zero => omega
    | succ c' =>
      simp only [whileM] at h ⊢
      cases hfs : f s with
      | error e => rw [hfs] at h; cases h
      | ok r =>
        rw [hfs] at h
        cases r with
        | inl s' => exact ih c' s' h (by omega)
        | inr b' => exact h

end Loops

end Flbwt
