import Verif.Sais
import Verif.Theory

/-!
# Memory layer for the proofs about `sais`: abstract contents of `SA`, `B`, `C`
-/

namespace Flbwt

open SaStore LawfulSaStore

/-- function update -/
def fupd (A : Nat → Int) (i : Nat) (v : Int) : Nat → Int := fun j => if j = i then v else A j

theorem fupd_self (A : Nat → Int) (i : Nat) (v : Int) : fupd A i v i = v := by simp [fupd]
theorem fupd_ne (A : Nat → Int) {i j : Nat} (v : Int) (h : j ≠ i) : fupd A i v j = A j := by simp [fupd, h]

variable {S : Type} [LawfulSaStore S]

theorem Fit.of_le {n : Nat} {v : Int} (hn : (n : Int) < (2 : Int) ^ (width S - 1)) (h1 : -(n : Int) - 1 ≤ v) (h2 : v ≤ n) :
    Fit S v := by constructor <;> omega

theorem loc_fit {v : Int} (h : Fit S v) : loc S v = v := by
  unfold loc
  have h1 := w1 (S := S)
  have h2 := w_loc (S := S)
  have h3 : (2 : Int) ^ (width S - 1) ≤ (2 : Int) ^ (locBits S - 1) := by
    have := Nat.pow_le_pow_right (n := 2) (by decide) (show width S - 1 ≤ locBits S - 1 by omega)
    exact_mod_cast this
  obtain ⟨h4, h5⟩ := h
  exact toInt_ofInt_fits (by omega) v (by omega) (by omega)

theorem uloc_fit {v : Int} (h : Fit S v) (h0 : 0 ≤ v) : uloc S v = v := by
  have := loc_fit h
  unfold loc at this
  unfold uloc
  rw [toNat_toInt_nonneg _ (by omega), this]
  omega

/-- `SA[0..n)` holds `A`; nothing at or beyond `lim` differs from `s0` -/
structure Ra (n lim : Nat) (s0 s : St S) (A : Nat → Int) : Prop where
  sz : size s.sa = size s0.sa
  hn : n ≤ lim
  hl : lim ≤ size s0.sa
  frame : ∀ x, lim ≤ x → get s.sa x = get s0.sa x
  a : ∀ i, i < n → get s.sa i = A i

/-- value at a pointer -/
def pv (s : St S) (p : Ptr) (i : Nat) : Int :=
  match p with
  | .sa off => get s.sa (off + i)
  | .hp => get s.hp i

/-- layout of the counters -/
structure Lay where
  n : Nat
  k : Nat
  lim : Nat
  C : Ptr
  B : Ptr

def Ptr.ok (L : Lay) : Ptr → Prop
  | .sa off => L.n ≤ off ∧ off + L.k ≤ L.lim
  | .hp => True

structure Lay.OK (L : Lay) : Prop where
  c : L.C.ok L
  b : L.B.ok L
  sep : L.C = L.B ∨ ∃ o1 o2, L.C = .sa o1 ∧ L.B = .sa o2 ∧ o1 + L.k ≤ o2

/-- `SA[0..n)` holds `A`, `B[0..k)` holds `Bf`, `C[0..k)` holds `Cf` -/
structure Rp (L : Lay) (s0 s : St S) (A Bf Cf : Nat → Int) : Prop extends Ra L.n L.lim s0 s A where
  b : ∀ c, c < L.k → pv s L.B c = Bf c
  c : ∀ c, c < L.k → pv s L.C c = Cf c
  hp : L.B = .hp → L.k ≤ size s.hp

variable {n lim : Nat} {s0 s : St S} {A Bf Cf : Nat → Int} {L : Lay}

theorem Ra.ld (h : Ra n lim s0 s A) {i : Nat} (hi : i < n) : s.ld (.sa 0) (i : Int) = .ok (A i) := by
  have := h.hn; have := h.hl; have := h.sz
  unfold St.ld
  simp only []
  rw [show ((0 : Nat) : Int) + (i : Int) = (i : Int) by omega, Int.toNat_natCast]
  rw [if_pos (by omega), h.a i hi]

theorem Ra.st (h : Ra n lim s0 s A) {i : Nat} (hi : i < n) {v : Int} (hv : Fit S v) :
    ∃ s', s.st (.sa 0) (i : Int) v = .ok s' ∧ Ra n lim s0 s' (fupd A i v) ∧ s'.hp = s.hp ∧
      s'.sa = put s.sa i v := by
  have h1 := h.hn; have h2 := h.hl; have h3 := h.sz
  refine ⟨{ s with sa := put s.sa i v }, ?_, ⟨?_, h1, h2, ?_, ?_⟩, rfl, rfl⟩
  · unfold St.st
    rw [if_pos hv]
    simp only []
    rw [show ((0 : Nat) : Int) + (i : Int) = (i : Int) by omega, Int.toNat_natCast]
    rw [if_pos (by omega)]
  · rw [size_put]; exact h3
  · intro x hx
    show get (put s.sa i v) x = _
    rw [get_put _ _ _ _ hv.1 hv.2, if_neg (by omega)]
    exact h.frame x hx
  · intro x hx
    show get (put s.sa i v) x = _
    rw [get_put _ _ _ _ hv.1 hv.2, fupd]
    split
    · rfl
    · exact h.a x hx

/-- store anywhere below the limit but outside `SA[0..n)` -/
theorem Ra.st_out (h : Ra n lim s0 s A) {x : Nat} (hx : n ≤ x) (hx2 : x < lim) {v : Int} (hv : Fit S v) {off : Nat}
    {i : Int} (hi : (off : Int) + i = x) :
    ∃ s', s.st (.sa off) i v = .ok s' ∧ Ra n lim s0 s' A ∧ s'.hp = s.hp ∧ s'.sa = put s.sa x v := by
  have h1 := h.hn; have h2 := h.hl; have h3 := h.sz
  refine ⟨{ s with sa := put s.sa x v }, ?_, ⟨?_, h1, h2, ?_, ?_⟩, rfl, rfl⟩
  · unfold St.st
    rw [if_pos hv]
    simp only [hi, Int.toNat_natCast]
    rw [if_pos (by omega)]
  · rw [size_put]; exact h3
  · intro y hy
    show get (put s.sa x v) y = _
    rw [get_put _ _ _ _ hv.1 hv.2, if_neg (by omega)]
    exact h.frame y hy
  · intro y hy
    show get (put s.sa x v) y = _
    rw [get_put _ _ _ _ hv.1 hv.2, if_neg (by omega)]
    exact h.a y hy

theorem Rp.st (h : Rp L s0 s A Bf Cf) (ok : L.OK) {i : Nat} (hi : i < L.n) {v : Int} (hv : Fit S v) :
    ∃ s', s.st (.sa 0) (i : Int) v = .ok s' ∧ Rp L s0 s' (fupd A i v) Bf Cf := by
  obtain ⟨s', h1, h2, h3, h4⟩ := h.toRa.st hi hv
  have hpv : ∀ p : Ptr, p.ok L → ∀ c, c < L.k → pv s' p c = pv s p c := by
    intro p hp c hc
    cases p with
    | hp => simp [pv, h3]
    | sa off =>
      simp only [pv, h4]
      rw [get_put _ _ _ _ hv.1 hv.2, if_neg]
      have := hp.1; omega
  exact ⟨s', h1, h2, fun c hc => by rw [hpv _ ok.b c hc]; exact h.b c hc,
    fun c hc => by rw [hpv _ ok.c c hc]; exact h.c c hc, fun hb => by rw [h3]; exact h.hp hb⟩

theorem Rp.ldP (h : Rp L s0 s A Bf Cf) {p : Ptr} (ok : p.ok L) (hhp : p = .hp → L.B = .hp) {c : Nat} (hc : c < L.k) :
    s.ld p (c : Int) = .ok (pv s p c) := by
  have h1 := h.hn; have h2 := h.hl; have h3 := h.sz
  cases p with
  | hp =>
    have := h.hp (hhp rfl)
    simp only [St.ld, pv, Int.toNat_natCast]
    rw [if_pos (by omega)]
  | sa off =>
    have := ok.2
    simp only [St.ld, pv]
    rw [show ((off : Int) + (c : Int)) = ((off + c : Nat) : Int) by omega, Int.toNat_natCast, if_pos (by omega)]

theorem Lay.OK.hpC (ok : L.OK) : L.C = .hp → L.B = .hp := by
  intro h
  rcases ok.sep with h1 | ⟨o1, o2, h1, h2, _⟩
  · rw [← h1, h]
  · rw [h] at h1; cases h1

theorem Rp.ldB (h : Rp L s0 s A Bf Cf) (ok : L.OK) {c : Nat} (hc : c < L.k) : s.ld L.B (c : Int) = .ok (Bf c) := by
  rw [h.ldP ok.b id hc, h.b c hc]

theorem Rp.ldC (h : Rp L s0 s A Bf Cf) (ok : L.OK) {c : Nat} (hc : c < L.k) : s.ld L.C (c : Int) = .ok (Cf c) := by
  rw [h.ldP ok.c ok.hpC hc, h.c c hc]

/-- store through a counter pointer -/
theorem Rp.stP (h : Rp L s0 s A Bf Cf) {p : Ptr} (okp : p.ok L) (hhp : p = .hp → L.B = .hp) {c : Nat}
    (hc : c < L.k) {v : Int} (hv : Fit S v) :
    ∃ s', s.st p (c : Int) v = .ok s' ∧ Ra L.n L.lim s0 s' A ∧ (L.B = .hp → L.k ≤ size s'.hp) ∧
      pv s' p c = v ∧ (∀ d, d ≠ c → pv s' p d = pv s p d) ∧
      (∀ o1 o2, (p = .sa o1 → ∀ d, d < L.k → (o1 + L.k ≤ o2 ∨ o2 + L.k ≤ o1) → pv s' (.sa o2) d = pv s (.sa o2) d)) := by
  have h1 := h.hn; have h2 := h.hl; have h3 := h.sz
  cases p with
  | hp =>
    have hsz := h.hp (hhp rfl)
    refine ⟨{ s with hp := put s.hp c v }, ?_, ⟨h3, h1, h2, h.frame, h.a⟩, ?_, ?_, ?_, ?_⟩
    · unfold St.st
      rw [if_pos hv]
      simp only [Int.toNat_natCast]
      rw [if_pos (by omega)]
    · intro hb; simp only [size_put]; exact hsz
    · simp only [pv]; rw [get_put _ _ _ _ hv.1 hv.2, if_pos rfl]
    · intro d hd; simp only [pv]; rw [get_put _ _ _ _ hv.1 hv.2, if_neg hd]
    · intro o1 o2 ho; cases ho
  | sa off =>
    obtain ⟨o1, o2⟩ := okp
    obtain ⟨s', e1, e2, e3, e4⟩ := h.toRa.st_out (x := off + c) (by omega) (by omega) hv (off := off) (i := c) (by omega)
    refine ⟨s', e1, e2, fun hb => by rw [e3]; exact h.hp hb, ?_, ?_, ?_⟩
    · simp only [pv, e4]; rw [get_put _ _ _ _ hv.1 hv.2, if_pos rfl]
    · intro d hd; simp only [pv, e4]; rw [get_put _ _ _ _ hv.1 hv.2, if_neg (by omega)]
    · intro o1 o2 ho d hd hdis
      injection ho with ho
      subst ho
      simp only [pv, e4]; rw [get_put _ _ _ _ hv.1 hv.2, if_neg (by omega)]

theorem Rp.stB (h : Rp L s0 s A Bf Cf) (ok : L.OK) {c : Nat} (hc : c < L.k) {v : Int} (hv : Fit S v) :
    ∃ s', s.st L.B (c : Int) v = .ok s' ∧
      Rp L s0 s' A (fupd Bf c v) (if L.C = L.B then fupd Cf c v else Cf) := by
  obtain ⟨s', e1, e2, e3, e4, e5, e6⟩ := h.stP ok.b id hc hv
  refine ⟨s', e1, e2, fun d hd => ?_, fun d hd => ?_, e3⟩
  · by_cases hdc : d = c
    · subst hdc; rw [e4, fupd_self]
    · rw [e5 d hdc, fupd_ne _ _ hdc]; exact h.b d hd
  · by_cases hCB : L.C = L.B
    · rw [if_pos hCB, hCB]
      by_cases hdc : d = c
      · subst hdc; rw [e4, fupd_self]
      · rw [e5 d hdc, fupd_ne _ _ hdc, ← hCB]; exact h.c d hd
    · rw [if_neg hCB]
      rcases ok.sep with hs | ⟨o1, o2, h1, h2, h3⟩
      · exact absurd hs hCB
      · rw [h1, e6 o2 o1 h2 d hd (Or.inr h3), ← h1]; exact h.c d hd

theorem Rp.stC (h : Rp L s0 s A Bf Cf) (ok : L.OK) {c : Nat} (hc : c < L.k) {v : Int} (hv : Fit S v) :
    ∃ s', s.st L.C (c : Int) v = .ok s' ∧
      Rp L s0 s' A (if L.C = L.B then fupd Bf c v else Bf) (fupd Cf c v) := by
  obtain ⟨s', e1, e2, e3, e4, e5, e6⟩ := h.stP ok.c ok.hpC hc hv
  refine ⟨s', e1, e2, fun d hd => ?_, fun d hd => ?_, e3⟩
  · by_cases hCB : L.C = L.B
    · rw [if_pos hCB, ← hCB]
      by_cases hdc : d = c
      · subst hdc; rw [e4, fupd_self]
      · rw [e5 d hdc, fupd_ne _ _ hdc, hCB]; exact h.b d hd
    · rw [if_neg hCB]
      rcases ok.sep with hs | ⟨o1, o2, h1, h2, h3⟩
      · exact absurd hs hCB
      · rw [h2, e6 o1 o2 h1 d hd (Or.inl h3), ← h2]; exact h.b d hd
  · by_cases hdc : d = c
    · subst hdc; rw [e4, fupd_self]
    · rw [e5 d hdc, fupd_ne _ _ hdc]; exact h.c d hd

/-! ## The text -/

/-- the text `T` of length `n` is readable through `chr`, and does not overlap `SA[0..lim)` -/
def TextAt (e : Env) (s0 : St S) (T : Nat → Nat) (n lim : Nat) : Prop :=
  match e.txt with
  | .packed arr => e.cs ≠ width S ∧ ∀ i, i < n → ∃ v, getBits e.sj arr e.cs (i + 1) = .ok v ∧ v.toNat = T i
  | .ptr base => e.cs = width S ∧ lim ≤ base ∧ base + n ≤ size s0.sa ∧ ∀ i, i < n → get s0.sa (base + i) = T i
  | .ints arr => e.cs = width S ∧ ∀ i, i < n → i < arr.size ∧ arr.data i = T i

theorem TextAt.chr {e : Env} {T : Nat → Nat} {n' : Nat} (ht : TextAt e s0 T n' lim) (h : Ra n lim s0 s A) {i : Nat}
    (hi : i < n') : chr e s (i : Int) = .ok (T i : Int) := by
  unfold TextAt at ht
  unfold Flbwt.chr
  cases htx : e.txt with
  | packed arr =>
    rw [htx] at ht
    simp only at ht
    rw [if_neg ht.1]
    obtain ⟨v, hv, hv2⟩ := ht.2 i hi
    simp only
    rw [if_pos (by omega), show ((i : Int) + 1).toNat = i + 1 by omega, hv]
    show Except.ok (v.toNat : Int) = _
    rw [hv2]
  | ptr base =>
    rw [htx] at ht
    simp only at ht
    obtain ⟨h1, h2, h3, h4⟩ := ht
    rw [if_pos h1]
    have h5 := h.sz
    simp only [Int.toNat_natCast]
    have h6 : get s.sa (base + i) = T i := by rw [h.frame _ (by omega), h4 i hi]
    rw [if_pos (by omega), getU_get _ _ (by rw [h6]; omega), h6]
    simp
  | ints arr =>
    rw [htx] at ht
    simp only at ht
    obtain ⟨h1, h2⟩ := ht
    rw [if_pos h1]
    simp only [Int.toNat_natCast]
    rw [if_pos (by omega), Mem.rd_ok _ (h2 i hi).1, (h2 i hi).2]
    rfl

end Flbwt
