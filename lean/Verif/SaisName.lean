import Verif.SaisInduce
import Verif.TheoryLms

/-!
# Proofs about `sais`: compaction, lengths, naming, gathering of names
-/

namespace Flbwt

open SaStore LawfulSaStore

variable {S : Type} [LawfulSaStore S]
variable {e : Env} {s0 s : St S} {T : Nat → Nat} {L : Lay} {A Bf Cf : Nat → Int} {r : Nat → Nat} {n lim : Nat}

/-- store at an absolute index, through any base pointer -/
theorem Ra.st' (h : Ra n lim s0 s A) {x : Nat} (hx : x < n) {v : Int} (hv : Fit S v) {off : Nat}
    {i : Int} (hi : (off : Int) + i = x) :
    ∃ s', s.st (.sa off) i v = .ok s' ∧ Ra n lim s0 s' (fupd A x v) := by
  obtain ⟨s', e1, e2, _⟩ := h.st hx hv
  refine ⟨s', ?_, e2⟩
  rw [← e1]
  unfold St.st
  simp only []
  rw [hi, show ((0 : Nat) : Int) + (x : Int) = (x : Int) by omega]

theorem Ra.ld' (h : Ra n lim s0 s A) {x : Nat} (hx : x < n) {off : Nat}
    {i : Int} (hi : (off : Int) + i = x) : s.ld (.sa off) i = .ok (A x) := by
  rw [← h.ld hx]
  unfold St.ld
  simp only []
  rw [hi, show ((0 : Nat) : Int) + (x : Int) = (x : Int) by omega]

theorem Ra.congr {A' : Nat → Int} (h : Ra n lim s0 s A) (hA : ∀ i, i < n → A i = A' i) : Ra n lim s0 s A' :=
  ⟨h.sz, h.hn, h.hl, h.frame, fun i hi => by rw [h.a i hi, hA i hi]⟩

theorem clearFrom_ra (hz : Fit S (0 : Int)) (h : Ra n lim s0 s A) (lo : Nat) :
    Tot (clearFrom lo n s) (fun s' => Ra n lim s0 s' (fun i => if i < lo then A i else 0)) := by
  unfold clearFrom
  have l1 := loopUp_spec (σ := St S) (fun i s' => Ra n lim s0 s' (fun j => if lo ≤ j ∧ j < i then 0 else A j)) lo (n - lo) s
    (fun i s => s.st (.sa 0) i 0) (h.congr fun j _ => by rw [if_neg (by omega)]) (by
      rintro i s' _ hi h1
      obtain ⟨s'', e1, e2, _⟩ := h1.st (i := i) (by omega) hz
      rw [e1]
      refine e2.congr fun j _ => ?_
      unfold fupd
      by_cases h2 : j = i
      · subst h2; rw [if_pos rfl, if_pos (by omega)]
      · rw [if_neg h2]
        by_cases h3 : lo ≤ j ∧ j < i
        · simp only [if_pos h3]; rw [if_pos (by omega)]
        · simp only [if_neg h3]; rw [if_neg (by omega)])
  refine l1.mono ?_
  intro s' h'
  refine h'.congr fun i hi => ?_
  by_cases h3 : i < lo
  · rw [if_neg (by omega), if_pos h3]
  · rw [if_pos (by omega), if_neg h3]

/-! ## Compaction -/

theorem runEnd_spec (X : Ctx e s0 T L) (h : Ra L.n L.lim s0 s A) {p : Nat} (hp : p < L.n) :
    Tot (runEnd e L.n s p (T p : Int)) (fun r => p < r.1 ∧ r.1 ≤ L.n ∧ (∀ q, p ≤ q → q < r.1 → T q = T p) ∧
      (r.1 < L.n → r.2 = (T r.1 : Int) ∧ T r.1 ≠ T p)) := by
  unfold runEnd
  refine whileM_spec (fun x => p < x.1 ∧ x.1 ≤ L.n ∧ (∀ q, p ≤ q → q < x.1 → T q = T p)) (fun x => L.n - x.1) _ (L.n + 1)
    (p + 1, (T p : Int)) _ ?_ (by omega) ?_
  · refine ⟨by simp, by simp; omega, fun q h1 h2 => ?_⟩
    simp only at h2
    have : q = p := by omega
    rw [this]
  · rintro ⟨j, c1⟩ ⟨h1, h2, h3⟩
    simp only at h1 h2 h3 ⊢
    by_cases hj : j < L.n
    · rw [if_pos hj]
      simp only [X.chr h hj, Tot_bind, Tot_ok, X.toI hj (X.t63 _ hj)]
      by_cases hne : (T p : Int) ≠ (T j : Int)
      · rw [if_pos hne]
        exact ⟨h1, h2, h3, fun _ => ⟨rfl, fun hh => hne (by simp only at hh; omega)⟩⟩
      · rw [if_neg hne]
        refine ⟨⟨by omega, by omega, fun q hq1 hq2 => ?_⟩, by omega⟩
        by_cases hqj : q = j
        · subst hqj; omega
        · exact h3 q hq1 (by omega)
    · rw [if_neg hj]
      exact ⟨h1, h2, h3, fun hh => absurd hh hj⟩

/-- index of an LMS position in the order `rk` -/
noncomputable def lix (T : Nat → Nat) (n : Nat) (r : Nat → Nat) (p : Nat) : Nat :=
  cnt n (fun q => isLMS T n q ∧ rk T n r q < rk T n r p)

theorem lix_lt {p : Nat} (hp : isLMS T n p) : lix T n r p < lmsN T n :=
  cnt_lt (fun x _ h' => h'.1) hp.2.1 hp (by simp)

theorem lix_mono {p q : Nat} (hp : isLMS T n p) (h : rk T n r p < rk T n r q) : lix T n r p < lix T n r q :=
  cnt_lt (fun x _ h' => ⟨h'.1, by omega⟩) hp.2.1 ⟨hp, h⟩ (by simp)

theorem lix_lt_iff {p q : Nat} (hp : isLMS T n p) (hr : RInj T n r) (hq : isLMS T n q) :
    lix T n r p < lix T n r q ↔ rk T n r p < rk T n r q := by
  constructor
  · intro h
    rcases Nat.lt_trichotomy (rk T n r p) (rk T n r q) with h1 | h1 | h1
    · exact h1
    · have := rk_inj hr hp.2.1 hq.2.1 h1; subst this; omega
    · have := lix_mono (r := r) hq h1; omega
  · exact lix_mono hp

theorem lix_inj (hr : RInj T n r) : RInj T n (lix T n r) := by
  intro p q hp hq h
  rcases Nat.lt_trichotomy (rk T n r p) (rk T n r q) with h1 | h1 | h1
  · have := lix_mono (r := r) hp h1; omega
  · exact rk_inj hr hp.2.1 hq.2.1 h1
  · have := lix_mono (r := r) hq h1; omega

theorem lix_surj (hr : RInj T n r) : ∀ a, a < lmsN T n → ∃ p, isLMS T n p ∧ lix T n r p = a := by
  intro a ha
  obtain ⟨p, _, h1, h2⟩ := cnt_surj (n := n) (P := isLMS T n) (lix T n r) (fun q _ hq => lix_lt hq)
    (fun a _ b _ h1 h2 h => lix_inj hr a b h1 h2 h) rfl a ha
  exact ⟨p, h1, h2⟩

/-- what is known before iteration `i` of the compaction -/
def CInv (S : Type) [LawfulSaStore S] (s0 : St S) (T : Nat → Nat) (L : Lay) (r : Nat → Nat) (A : Nat → Int) (i : Nat) (x : St S × Nat) : Prop :=
  x.2 = cnt L.n (fun p => isLMS T L.n p ∧ rk T L.n r p < i) ∧ x.2 ≤ i ∧
      ∃ A', Ra L.n L.lim s0 x.1 A' ∧ (∀ y, i ≤ y → y < L.n → A' y = A y) ∧
        ∀ p, isLMS T L.n p → rk T L.n r p < i → A' (lix T L.n r p) = p

theorem CInv.start (h : Ra L.n L.lim s0 s A) : CInv S s0 T L r A 0 (s, 0) :=
  ⟨by rw [cnt_false]; intro q _ h; omega, Nat.le_refl _, A, h, fun _ _ _ => rfl, fun p _ h => by omega⟩

theorem compact_step (X : Ctx e s0 T L) (hr : RInj T L.n r) (hA : ∀ p, p < L.n → A (rk T L.n r p) = p) {i : Nat} (hi : i < L.n)
    {x : St S × Nat} (hx : CInv S s0 T L r A i x) :
    Tot (do
      let p ← x.1.ld (.sa 0) i
      if 0 < p then do
        let prev ← Flbwt.chr e x.1 (p - 1)
        let c0 ← Flbwt.chr e x.1 p
        let c0 := toI64 c0
        if loc S prev > c0 then do
          let (j, c1) ← runEnd e L.n x.1 p.toNat c0
          if j < L.n ∧ c0 < c1 then do
            let s ← x.1.st (.sa 0) x.2 p
            .ok (s, x.2 + 1)
          else .ok (x.1, x.2)
        else .ok (x.1, x.2)
      else .ok (x.1, x.2)) (CInv S s0 T L r A (i + 1)) := by
  obtain ⟨s', m⟩ := x
  obtain ⟨hm, hmi, A', h1, h2, h3⟩ := hx
  simp only at hm hmi h1
  have hi' : i < L.n := by omega
  obtain ⟨p, hp, hpi⟩ := rk_surj (T := T) hr i hi'
  have hAi : A' i = p := by rw [h2 i (Nat.le_refl _) hi', ← hpi, hA p hp]
  -- the two possible outcomes
  have hno : ¬ isLMS T L.n p → ((s', m).2 = cnt L.n (fun p => isLMS T L.n p ∧ rk T L.n r p < i + 1) ∧ (s', m).2 ≤ i + 1 ∧
      ∃ A', Ra L.n L.lim s0 (s', m).1 A' ∧ (∀ y, i + 1 ≤ y → y < L.n → A' y = A y) ∧
      ∀ p, isLMS T L.n p → rk T L.n r p < i + 1 → A' (lix T L.n r p) = p) := by
    intro hnl
    have hne : ∀ q, isLMS T L.n q → rk T L.n r q < i + 1 → rk T L.n r q < i := by
      intro q hq hlt
      by_contra hc
      have := rk_inj hr hq.2.1 hp (by omega)
      subst this; exact hnl hq
    refine ⟨?_, by simp only; omega, A', h1, fun y hy1 hy2 => h2 y (by omega) hy2, fun q hq hlt => h3 q hq (hne q hq hlt)⟩
    simp only [hm]
    refine cnt_congr (fun q _ => ⟨fun ⟨a, b⟩ => ⟨a, by omega⟩, fun ⟨a, b⟩ => ⟨a, hne q a b⟩⟩)
  simp only [Tot_bind]
  rw [h1.ld hi', hAi]
  simp only [Tot_ok]
  by_cases hp0 : 0 < (p : Int)
  · rw [if_pos hp0]
    rw [show (p : Int) - 1 = ((p - 1 : Nat) : Int) by omega]
    simp only [X.chr h1 (show p - 1 < L.n by omega), X.chr h1 hp, Tot_bind, Tot_ok, X.toI hp (X.t63 _ hp)]
    rw [loc_fit (X.fitT (show p - 1 < L.n by omega))]
    by_cases hgt : (T (p - 1) : Int) > (T p : Int)
    · rw [if_pos hgt, Int.toNat_natCast, Tot_bind]
      refine (runEnd_spec X h1 hp).mono ?_
      rintro ⟨j, c1⟩ ⟨hj1, hj2, hj3, hj4⟩
      simp only at hj1 hj2 hj3 hj4 ⊢
      have hS := isS_run (T := T) (n := L.n) hj1 hj2 hj3 (fun h => (hj4 h).2)
      have hcond : (j < L.n ∧ (T p : Int) < c1) ↔ isLMS T L.n p := by
        rw [isLMS_iff hp, hS]
        constructor
        · rintro ⟨a, b⟩
          rw [(hj4 a).1] at b
          exact ⟨by omega, by omega, a, by omega⟩
        · rintro ⟨_, _, a, b⟩
          rw [(hj4 a).1]
          exact ⟨a, by omega⟩
      by_cases hl : isLMS T L.n p
      · rw [if_pos (hcond.2 hl)]
        obtain ⟨s'', e1, r1, _⟩ := h1.st (i := m) (by omega) (v := (p : Int)) (X.fit (by omega) (by omega))
        simp only [e1, Tot_bind, Tot_ok]
        have hlix : lix T L.n r p = m := by rw [hm, lix, hpi]
        refine ⟨?_, by omega, _, r1, fun y hy1 hy2 => ?_, fun q hq hlt => ?_⟩
        · rw [hm, eq_comm]
          refine cnt_insert hp (fun q hq => ?_) (by omega)
          constructor
          · rintro ⟨a, b⟩
            by_cases hqi : rk T L.n r q = i
            · exact Or.inr (rk_inj hr hq hp (by omega))
            · exact Or.inl ⟨a, by omega⟩
          · rintro (⟨a, b⟩ | rfl)
            · exact ⟨a, by omega⟩
            · exact ⟨hl, by omega⟩
        · rw [fupd_ne _ _ (by omega)]; exact h2 y (by omega) hy2
        · by_cases hqp : q = p
          · subst hqp; rw [hlix, fupd_self]
          · rw [fupd_ne]
            · refine h3 q hq ?_
              by_contra hc
              exact hqp (rk_inj hr hq.2.1 hp (by omega))
            · rw [← hlix]
              intro heq; exact hqp (lix_inj hr q p hq hl heq)
      · rw [if_neg (fun hc => hl (hcond.1 hc))]
        exact hno hl
    · rw [if_neg hgt]
      refine hno (fun hl => ?_)
      have := ((isLMS_iff hp).1 hl).2.1
      omega
  · rw [if_neg hp0]
    refine hno (fun hl => ?_)
    have := hl.1
    omega

theorem compact_spec (X : Ctx e s0 T L) (hr : RInj T L.n r) (h : Ra L.n L.lim s0 s A)
    (hA : ∀ p, p < L.n → A (rk T L.n r p) = p) :
    Tot (compact e L.n s) (fun x => x.2 = lmsN T L.n ∧ ∃ A', Ra L.n L.lim s0 x.1 A' ∧
      ∀ p, isLMS T L.n p → A' (lix T L.n r p) = p) := by
  unfold compact
  refine Tot.mono (loopUp_spec (σ := St S × Nat) (CInv S s0 T L r A) 0 L.n (s, 0) _ (CInv.start h)
    (fun i x _ hi hx => compact_step X hr hA (by omega) hx)) ?_
  rintro ⟨s', m⟩ ⟨h1, h2, A', h3, h4, h5⟩
  simp only [Nat.zero_add] at h1 h5
  refine ⟨?_, A', h3, fun p hp => h5 p hp (rk_lt_n hp.2.1)⟩
  simp only [h1]
  exact cnt_congr (fun q hq => ⟨fun h => h.1, fun h => ⟨h, rk_lt_n hq⟩⟩)

/-! ## Lengths -/

/-- `SA[0..m)` = `P`, `SA[m + p/2]` = `f p` for the LMS positions `p`, everything else 0 -/
structure Names (T : Nat → Nat) (n : Nat) (P : Nat → Nat) (f : Nat → Int) (A : Nat → Int) : Prop where
  lo : ∀ x, x < lmsN T n → A x = P x
  at_ : ∀ p, isLMS T n p → A (lmsN T n + p / 2) = f p
  zero : ∀ x, lmsN T n ≤ x → x < n → (∀ p, isLMS T n p → lmsN T n + p / 2 ≠ x) → A x = 0

theorem half_inj {p q : Nat} (hp : isLMS T n p) (hq : isLMS T n q) (h : p / 2 = q / 2) : p = q := by
  rcases Nat.lt_trichotomy p q with h1 | h1 | h1
  · have := lms_gap hp hq h1; omega
  · exact h1
  · have := lms_gap hq hp h1; omega

theorem half_lt {p : Nat} (hp : isLMS T n p) : lmsN T n + p / 2 < n := by
  have h1 := isLMS_bounds hp
  have h2 := lmsN_le (T := T) (n := n) (by omega)
  omega

theorem lens_spec (X : Ctx e s0 T L) (h : Ra L.n L.lim s0 s A) {P : Nat → Nat}
    (hA : ∀ x, x < lmsN T L.n → A x = P x) (hz : ∀ x, lmsN T L.n ≤ x → x < L.n → A x = 0) :
    Tot (lmsScan e L.n s (L.n : Int) fun i _ (s, j) => do
      let s ← s.st (.sa 0) (lmsN T L.n + i / 2 : Nat) (j - i)
      .ok (s, (i : Int))) (fun x => ∃ A', Ra L.n L.lim s0 x.1 A' ∧
        Names T L.n P (fun p => ((blk2 T L.n p).length : Int)) A') := by
  refine Tot.mono (lmsScan_spec (T := T) (I := fun i x => ∃ (A' : Nat → Int) (jn : Nat), Ra L.n L.lim s0 x.1 A' ∧ x.2 = (jn : Int) ∧
      i ≤ jn ∧ jn ≤ L.n ∧ (jn = L.n ∨ isLMS T L.n jn) ∧ (∀ q, i ≤ q → q < jn → ¬ isLMS T L.n q) ∧
      (∀ x, x < lmsN T L.n → A' x = P x) ∧
      (∀ q, isLMS T L.n q → i ≤ q → A' (lmsN T L.n + q / 2) = ((blk2 T L.n q).length : Int)) ∧
      (∀ x, lmsN T L.n ≤ x → x < L.n → (∀ q, isLMS T L.n q → i ≤ q → lmsN T L.n + q / 2 ≠ x) → A' x = 0))
      X.n1 s (L.n : Int) _ ?_ ?_ X.t63 ?_ ?_) ?_
  · rintro i x ⟨A', jn, h1, _⟩ j hj
    exact X.chr h1 hj
  · exact ⟨A, L.n, h, rfl, Nat.le_refl _, Nat.le_refl _, Or.inl rfl, fun q h1 h2 => by omega, hA,
      fun q hq hle => by have := hq.2.1; omega, fun x h1 h2 _ => hz x h1 h2⟩
  · rintro i x h1 h2 hn ⟨A', jn, g1, g2, g3, g4, g5, g6, g7, g8, g9⟩
    have key : ∀ q, isLMS T L.n q → (i ≤ q → i + 1 ≤ q) := by
      intro q hq hle
      rcases Nat.lt_or_eq_of_le hle with h | h
      · exact h
      · subst h; exact absurd hq hn
    refine ⟨A', jn, g1, g2, by omega, g4, g5, fun q hq1 hq2 => ?_, g7, fun q hq hle => g8 q hq (key q hq hle),
      fun x h1 h2 hq => g9 x h1 h2 (fun q a b => hq q a (by omega))⟩
    by_cases hqi : q = i
    · rw [hqi]; exact hn
    · exact g6 q (by omega) hq2
  · rintro i ⟨s', j⟩ hi ⟨A', jn, g1, g2, g3, g4, g5, g6, g7, g8, g9⟩
    simp only at g1 g2 ⊢
    have hnx := next_unique hi (by omega) g4 g5 g6
    have hin := hi.2.1
    have hlt := half_lt hi
    obtain ⟨s'', e1, r1, _⟩ := g1.st (i := lmsN T L.n + i / 2) hlt (v := j - i) (X.fit (by omega) (by omega))
    simp only [e1, Tot_bind, Tot_ok]
    refine ⟨_, i, r1, rfl, Nat.le_refl _, by omega, Or.inr hi, fun q h1 h2 => by omega, ?_, ?_, ?_⟩
    · intro x hx; rw [fupd_ne _ _ (by omega)]; exact g7 x hx
    · intro q hq hle
      by_cases hqi : q = i
      · subst hqi; rw [fupd_self]; omega
      · rw [fupd_ne]
        · exact g8 q hq (by omega)
        · intro heq; exact hqi (half_inj hq hi (by omega))
    · intro x h1 h2 hq
      rw [fupd_ne _ _ (fun heq => hq i hi (Nat.le_refl _) heq.symm)]
      exact g9 x h1 h2 (fun q a b => hq q a (by omega))
  · rintro x ⟨A', jn, g1, g2, g3, g4, g5, g6, g7, g8, g9⟩
    exact ⟨A', g1, ⟨g7, fun p hp => g8 p hp hp.1, fun x h1 h2 hp => g9 x h1 h2 (fun q a _ => hp q a)⟩⟩

/-! ## Naming -/

theorem sameBlock_spec (X : Ctx e s0 T L) (h : Ra L.n L.lim s0 s A) {p q : Nat} (hp : p < L.n) (hq : q < L.n)
    (hlen : (blk2 T L.n p).length = (blk2 T L.n q).length) :
    Tot (sameBlock e s (p : Int) (q : Int) (blk2 T L.n p).length) (fun b => b = true ↔ blk2 T L.n p = blk2 T L.n q) := by
  obtain ⟨p1, _, _, _, p2⟩ := blk2_next (T := T) hp
  obtain ⟨q1, _, _, _, q2⟩ := blk2_next (T := T) hq
  unfold sameBlock
  refine whileM_spec (fun j => j ≤ (blk2 T L.n p).length ∧ ∀ t, t < j → T (p + t) = T (q + t))
    (fun j => (blk2 T L.n p).length - j) _ _ 0 _ ⟨Nat.zero_le _, fun t ht => by omega⟩ (by omega) ?_
  rintro j ⟨h1, h2⟩
  by_cases hj : j < (blk2 T L.n p).length
  · rw [if_pos hj]
    simp only [X.addI (show p + j < L.n by omega), X.addI (show q + j < L.n by omega), X.chr h (show p + j < L.n by omega), X.chr h (show q + j < L.n by omega), Tot_bind, Tot_ok]
    by_cases hne : (T (p + j) : Int) ≠ (T (q + j) : Int)
    · rw [if_pos hne]
      simp only [Tot_ok, Bool.false_eq_true, false_iff]
      intro heq
      have e1 := p2 j hj
      have e2 := q2 j (by omega)
      rw [heq, e2] at e1
      injection e1
      omega
    · rw [if_neg hne]
      refine ⟨⟨by omega, fun t ht => ?_⟩, by omega⟩
      by_cases htj : t = j
      · subst htj; omega
      · exact h2 t (by omega)
  · rw [if_neg hj]
    simp only [Tot_ok, true_iff]
    apply List.ext_getElem?
    intro t
    by_cases ht : t < (blk2 T L.n p).length
    · rw [p2 t ht, q2 t (by omega), h2 t (by omega)]
    · rw [List.getElem?_eq_none (by omega), List.getElem?_eq_none (by omega)]

/-- what is known before iteration `i` of naming -/
def NInv (S : Type) [LawfulSaStore S] (s0 : St S) (T : Nat → Nat) (L : Lay) (r P : Nat → Nat) (i : Nat) (x : St S × Nat × Int × Int) : Prop :=
  x.2.1 = (if i = 0 then 0 else nmf T L.n P (i - 1)) ∧
    ((i = 0 ∧ x.2.2.2 = 0) ∨ (0 < i ∧ ∃ q : Nat, x.2.2.1 = (q : Int) ∧ q < L.n ∧ blk2 T L.n q = blk2 T L.n (P (i - 1)) ∧
      x.2.2.2 = ((blk2 T L.n q).length : Int))) ∧
    ∃ A', Ra L.n L.lim s0 x.1 A' ∧
      Names T L.n P (fun p => if r p < i then (nmf T L.n P (r p) : Int) else ((blk2 T L.n p).length : Int)) A'

theorem NInv.start (h : Ra L.n L.lim s0 s A) {P : Nat → Nat} (hA : Names T L.n P (fun p => ((blk2 T L.n p).length : Int)) A) :
    NInv S s0 T L r P 0 (s, 0, (L.n : Int), 0) := by
  refine ⟨rfl, Or.inl ⟨rfl, rfl⟩, A, h, ?_⟩
  refine ⟨hA.lo, fun p hp => ?_, hA.zero⟩
  rw [if_neg (by omega)]; exact hA.at_ p hp

theorem name_step (X : Ctx e s0 T L) {P : Nat → Nat}
    (hP : ∀ x, x < lmsN T L.n → isLMS T L.n (P x))
    (hrP : ∀ x, x < lmsN T L.n → r (P x) = x) (hPr : ∀ p, isLMS T L.n p → r p < lmsN T L.n ∧ P (r p) = p)
    {i : Nat} (hi : i < lmsN T L.n) {x : St S × Nat × Int × Int} (hx : NInv S s0 T L r P i x) :
    Tot (do
      let p ← x.1.ld (.sa 0) i
      let index ← addI64 (lmsN T L.n : Int) (p / 2)
      let plen ← x.1.ld (.sa 0) index
      let same ← sameAs e x.1 p x.2.2.1 plen x.2.2.2
      let y := if same then x.2 else (x.2.1 + 1, p, plen)
      let s ← x.1.st (.sa 0) index y.1
      .ok (s, y)) (NInv S s0 T L r P (i + 1)) := by
  have hn2 := lmsN_le (T := T) X.n1
  obtain ⟨s', name, q, qlen⟩ := x
  obtain ⟨g1, g2, A', g3, g4⟩ := hx
  simp only at g1 g2 g3
  have hil : i < lmsN T L.n := hi
  have hl := hP i hil
  have hlt := half_lt hl
  have hlen : A' (lmsN T L.n + P i / 2) = ((blk2 T L.n (P i)).length : Int) := by
    have := g4.at_ (P i) hl
    rwa [hrP i hil, if_neg (by omega)] at this
  obtain ⟨b1, b2, _⟩ := blk2_next (T := T) hl.2.1
  simp only [Tot_bind]
  rw [g3.ld (by omega), g4.lo i hil]
  simp only [Tot_ok]
  rw [show (P i : Int) / 2 = ((P i / 2 : Nat) : Int) by omega, X.addI hlt]
  simp only [Tot_ok]
  rw [g3.ld hlt, hlen]
  simp only [Tot_ok]
  -- the comparison
  have hsame : Tot (sameAs e s' (P i : Int) q ((blk2 T L.n (P i)).length : Int) qlen)
      (fun b => b = true ↔ (0 < i ∧ blk2 T L.n (P i) = blk2 T L.n (P (i - 1)))) := by
    unfold sameAs
    rcases g2 with ⟨hi0, hq⟩ | ⟨hi0, qn, hq, hqn, hqb, hql⟩
    · rw [if_neg (by omega)]
      simp only [Tot_ok, Bool.false_eq_true, false_iff]
      omega
    · split
      · next heq =>
        rw [hql] at heq
        rw [hq, Int.toNat_natCast]
        refine (sameBlock_spec X g3 hl.2.1 hqn (by omega)).mono ?_
        intro b hb
        rw [hb, hqb]
        exact ⟨fun h => ⟨hi0, h⟩, fun h => h.2⟩
      · next hne =>
        simp only [Tot_ok, Bool.false_eq_true, false_iff]
        rintro ⟨_, heq⟩
        apply hne
        rw [hql, hqb, heq]
  refine hsame.mono ?_
  intro b hb
  have hname : (if b = true then name else name + 1) = nmf T L.n P i := by
    rw [g1]
    cases i with
    | zero =>
      have : ¬ b = true := by rw [hb]; omega
      rw [if_neg this]; rfl
    | succ t =>
      rw [nmf]
      simp only [Nat.add_sub_cancel] at hb ⊢
      rw [if_neg (show ¬ t + 1 = 0 by omega)]
      by_cases hbb : b = true
      · rw [if_pos hbb, if_pos (hb.1 hbb).2]; rfl
      · rw [if_neg hbb, if_neg]
        intro heq; exact hbb (hb.2 ⟨by omega, heq⟩)
  have hle := nmf_le (T := T) (n := L.n) (P := P) i
  have hst : ∃ s'', s'.st (.sa 0) ((lmsN T L.n + P i / 2 : Nat) : Int) (nmf T L.n P i : Int) = .ok s'' ∧
      Ra L.n L.lim s0 s'' (fupd A' (lmsN T L.n + P i / 2) (nmf T L.n P i : Int)) := by
    obtain ⟨s'', e1, r1, _⟩ := g3.st hlt (v := (nmf T L.n P i : Int)) (X.fit (by omega) (by omega))
    exact ⟨s'', e1, r1⟩
  obtain ⟨s'', e1, r1⟩ := hst
  have hnames : Names T L.n P (fun p => if r p < i + 1 then (nmf T L.n P (r p) : Int) else ((blk2 T L.n p).length : Int))
      (fupd A' (lmsN T L.n + P i / 2) (nmf T L.n P i : Int)) := by
    refine ⟨fun x hx => ?_, fun p hp => ?_, fun x hx1 hx2 hx3 => ?_⟩
    · rw [fupd_ne _ _ (by omega)]; exact g4.lo x hx
    · by_cases hpi : r p = i
      · have : p = P i := by rw [← hpi, (hPr p hp).2]
        subst this
        rw [fupd_self, if_pos (by omega), hpi]
      · rw [fupd_ne, g4.at_ p hp]
        · by_cases hlt : r p < i
          · rw [if_pos hlt, if_pos (by omega)]
          · rw [if_neg hlt, if_neg (by omega)]
        · intro heq
          have := half_inj hp hl (by omega)
          rw [this, hrP i hil] at hpi
          exact hpi rfl
    · rw [fupd_ne _ _ (fun heq => hx3 (P i) hl heq.symm)]
      exact g4.zero x hx1 hx2 hx3
  by_cases hbb : b = true
  · rw [if_pos hbb] at hname
    subst hbb
    simp only [if_true, hname, e1, Tot_ok]
    refine ⟨by rw [if_neg (by omega)]; rfl, Or.inr ⟨by omega, ?_⟩, _, r1, hnames⟩
    rcases g2 with ⟨hi0, hq⟩ | ⟨hi0, qn, hq, hqn, hqb, hql⟩
    · have := hb.1 rfl; omega
    · exact ⟨qn, hq, hqn, by rw [hqb, Nat.add_sub_cancel, ← (hb.1 rfl).2], hql⟩
  · rw [if_neg hbb] at hname
    have hbf : b = false := by simpa using hbb
    subst hbf
    simp only [Bool.false_eq_true, if_false, hname, e1, Tot_ok]
    refine ⟨by rw [if_neg (by omega)]; rfl, Or.inr ⟨by omega, P i, rfl, hl.2.1, rfl, rfl⟩, _, r1, hnames⟩

theorem nameSubstrings_spec (X : Ctx e s0 T L) (h : Ra L.n L.lim s0 s A) {P : Nat → Nat}
    (hP : ∀ x, x < lmsN T L.n → isLMS T L.n (P x))
    (hrP : ∀ x, x < lmsN T L.n → r (P x) = x) (hPr : ∀ p, isLMS T L.n p → r p < lmsN T L.n ∧ P (r p) = p)
    (hA : Names T L.n P (fun p => ((blk2 T L.n p).length : Int)) A) :
    Tot (nameSubstrings e L.n (lmsN T L.n) s) (fun x =>
      x.2 = (if lmsN T L.n = 0 then 0 else nmf T L.n P (lmsN T L.n - 1)) ∧ ∃ A', Ra L.n L.lim s0 x.1 A' ∧
        Names T L.n P (fun p => (nmf T L.n P (r p) : Int)) A') := by
  unfold nameSubstrings
  rw [Tot_bind]
  refine Tot.mono (loopUp_spec (σ := St S × Nat × Int × Int) (NInv S s0 T L r P)
    0 (lmsN T L.n) (s, 0, (L.n : Int), 0) _ (NInv.start h hA)
    (fun i x _ hi hx => name_step X hP hrP hPr (by omega) hx)) ?_
  · rintro ⟨s', name, q, qlen⟩ ⟨g1, g2, A', g3, g4⟩
    simp only [Nat.zero_add] at g1 g3 g4 ⊢
    refine ⟨g1, A', g3, g4.lo, fun p hp => ?_, g4.zero⟩
    rw [g4.at_ p hp, if_pos (hPr p hp).1]

end Flbwt
