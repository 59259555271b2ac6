import Verif.SaisCount

/-!
# Proofs about `sais`: placement of the LMS positions at the ends of their buckets
-/

namespace Flbwt

open SaStore LawfulSaStore

variable {S : Type} [LawfulSaStore S]
variable {e : Env} {s0 s : St S} {T : Nat → Nat} {L : Lay} {A Bf Cf : Nat → Int} {r : Nat → Nat}

/-- contents of `SA` before the first pass -/
structure Placed (T : Nat → Nat) (n : Nat) (r : Nat → Nat) (A : Nat → Int) : Prop where
  lms : ∀ p, isLMS T n p → A (slM T n r p) = p
  zero : ∀ x, x < n → (∀ p, isLMS T n p → slM T n r p ≠ x) → A x = 0

/-- bucket counters during the placement; `D` = positions already placed -/
def BEnd (T : Nat → Nat) (n k : Nat) (D : Nat → Prop) (Bf : Nat → Int) : Prop :=
  ∀ c, c < k → Bf c = (bst T n (c + 1) : Int) - (cnt n (fun q => D q ∧ T q = c) : Int)

theorem slM_inj {n : Nat} (hr : RInj T n r) {p q : Nat} (hp : isLMS T n p) (hq : isLMS T n q)
    (h : slM T n r p = slM T n r q) : p = q := by
  rw [← sl1_M hp, ← sl1_M hq] at h
  exact sl1_inj hr hp.2.1 hq.2.1 (Or.inr (Or.inr hp)) (Or.inr (Or.inr hq)) h

theorem slM_lt_n {n : Nat} {p : Nat} (hp : isLMS T n p) : slM T n r p < n := by
  rw [← sl1_M hp]; exact sl1_lt_n hp.2.1 (Or.inr (Or.inr hp))

theorem putEnd_spec (X : Ctx e s0 T L) (h : Rp L s0 s A Bf Cf) (hr : RInj T L.n r) {p : Nat} (hp : isLMS T L.n p)
    {D : Nat → Prop} (hB : BEnd T L.n L.k D Bf)
    (hD : ∀ q, q < L.n → ((D q ∧ T q = T p) ↔ (isLMS T L.n q ∧ T q = T p ∧ r p < r q))) :
    Tot (putEnd L.B (T p : Int) (p : Int) s) (fun s' => ∃ Bf' Cf', Rp L s0 s' (fupd A (slM T L.n r p) p) Bf' Cf' ∧
      BEnd T L.n L.k (fun q => D q ∨ q = p) Bf' ∧ (L.C ≠ L.B → Cf' = Cf)) := by
  have hTk := X.hT p hp.2.1
  have z := slM_zone (r := r) hp
  have zn := slM_lt_n (r := r) hp
  have hDp : ¬ (D p ∧ T p = T p) := fun hd => by have := ((hD p hp.2.1).1 hd).2.2; omega
  have c1 : cnt L.n (fun q => isLMS T L.n q ∧ T q = T p ∧ r p ≤ r q) = cnt L.n (fun q => D q ∧ T q = T p) + 1 := by
    refine cnt_insert hp.2.1 (fun q hq => ?_) hDp
    rw [hD q hq]
    constructor
    · rintro ⟨h1, h2, h3⟩
      rcases Nat.lt_or_eq_of_le h3 with h4 | h4
      · exact Or.inl ⟨h1, h2, h4⟩
      · exact Or.inr (hr _ _ hp h1 h4).symm
    · rintro (⟨h1, h2, h3⟩ | rfl)
      · exact ⟨h1, h2, by omega⟩
      · exact ⟨hp, rfl, Nat.le_refl _⟩
  have hv := hB _ hTk
  have hval : Bf (T p) - 1 = (slM T L.n r p : Int) := by rw [hv]; omega
  unfold putEnd
  rw [Tot_bind, h.ldB X.ok hTk]
  simp only [Tot_ok, Tot_bind, hval]
  obtain ⟨s1, e1, r1⟩ := h.stB X.ok hTk (v := (slM T L.n r p : Int)) (X.fit (by omega) (by omega))
  rw [e1]
  simp only [Tot_ok]
  obtain ⟨s2, e2, r2⟩ := r1.st X.ok zn (v := (p : Int)) (X.fit (by omega) (by have := hp.2.1; omega))
  rw [e2]
  refine ⟨_, _, r2, ?_, fun hne => if_neg hne⟩
  intro c hc
  by_cases hcp : c = T p
  · subst hcp
    rw [fupd_self, ← hval, hv]
    have : cnt L.n (fun q => (D q ∨ q = p) ∧ T q = T p) = cnt L.n (fun q => D q ∧ T q = T p) + 1 := by
      refine cnt_insert hp.2.1 (fun q hq => ?_) hDp
      constructor
      · rintro ⟨h1 | h1, h2⟩
        · exact Or.inl ⟨h1, h2⟩
        · exact Or.inr h1
      · rintro (⟨h1, h2⟩ | rfl)
        · exact ⟨Or.inl h1, h2⟩
        · exact ⟨Or.inr rfl, rfl⟩
    simp only [this]
    omega
  · rw [fupd_ne _ _ hcp, hB c hc]
    have : cnt L.n (fun q => (D q ∨ q = p) ∧ T q = c) = cnt L.n (fun q => D q ∧ T q = c) := by
      refine cnt_congr (fun q hq => ?_)
      constructor
      · rintro ⟨h1 | h1, h2⟩
        · exact ⟨h1, h2⟩
        · subst h1; omega
      · rintro ⟨h1, h2⟩
        exact ⟨Or.inl h1, h2⟩
    rw [this]

/-- placement in stage 1: text order -/
theorem place1_spec (X : Ctx e s0 T L) (h : Rp L s0 s (fun _ => 0) Bf Cf)
    (hB : ∀ c, c < L.k → Bf c = (bst T L.n (c + 1) : Int))
    (hC : L.C ≠ L.B → ∀ c, c < L.k → Cf c = (occ T L.n c : Int)) :
    Tot (lmsScan e L.n s () fun i c1 (s, t) => do
      let s ← putEnd L.B c1 i s
      .ok (s, t)) (fun x => ∃ A' Bf' Cf', Rp L s0 x.1 A' Bf' Cf' ∧ Placed T L.n id A' ∧
        (L.C ≠ L.B → ∀ c, c < L.k → Cf' c = (occ T L.n c : Int))) := by
  have hr : RInj T L.n id := fun p q _ _ h => h
  refine Tot.mono (lmsScan_spec (T := T) (I := fun i x => ∃ A' Bf' Cf', Rp L s0 x.1 A' Bf' Cf' ∧
      BEnd T L.n L.k (fun q => isLMS T L.n q ∧ i ≤ q) Bf' ∧
      (∀ q, isLMS T L.n q → i ≤ q → A' (slM T L.n id q) = q) ∧
      (∀ x, x < L.n → (∀ p, isLMS T L.n p → i ≤ p → slM T L.n id p ≠ x) → A' x = 0) ∧
      (L.C ≠ L.B → ∀ c, c < L.k → Cf' c = (occ T L.n c : Int))) X.n1 s () _ ?_ ?_ X.t63 ?_ ?_) ?_
  · rintro i x ⟨A', B', C', h1, _⟩ j hj
    exact X.chr h1.toRa hj
  · refine ⟨_, _, _, h, ?_, ?_, ?_, hC⟩
    · intro c hc
      rw [hB c hc, cnt_false]; · simp
      rintro q hq ⟨⟨_, h1⟩, _⟩; omega
    · intro q hq hq2; have := hq.2.1; omega
    · intro x _ _; rfl
  · rintro i x h1 h2 hn ⟨A', B', C', h3, h4, h5, h6, h7⟩
    have key : ∀ q, isLMS T L.n q → (i ≤ q ↔ i + 1 ≤ q) := by
      intro q hq
      constructor
      · intro hle
        rcases Nat.lt_or_eq_of_le hle with h | h
        · exact h
        · subst h; exact absurd hq hn
      · intro; omega
    refine ⟨A', B', C', h3, ?_, ?_, ?_, h7⟩
    · intro c hc
      rw [h4 c hc]
      congr 2
      refine cnt_congr (fun q hq => ?_)
      constructor
      · rintro ⟨⟨a, b⟩, c⟩; exact ⟨⟨a, (key q a).2 b⟩, c⟩
      · rintro ⟨⟨a, b⟩, c⟩; exact ⟨⟨a, (key q a).1 b⟩, c⟩
    · intro q hq hle; exact h5 q hq ((key q hq).1 hle)
    · intro x hx hp; exact h6 x hx (fun p a b => hp p a ((key p a).2 b))
  · rintro i ⟨s', t⟩ hi ⟨A', B', C', h3, h4, h5, h6, h7⟩
    simp only [Tot_bind]
    refine Tot.mono (putEnd_spec X h3 hr hi h4 ?_) ?_
    · intro q hq
      simp only [id_eq]
      constructor
      · rintro ⟨⟨a, b⟩, c⟩; exact ⟨a, c, by omega⟩
      · rintro ⟨a, b, c⟩; exact ⟨⟨a, by omega⟩, b⟩
    · rintro s'' ⟨B'', C'', r1, r2, r3⟩
      refine ⟨_, _, _, r1, ?_, ?_, ?_, fun hne c hc => by rw [r3 hne]; exact h7 hne c hc⟩
      · intro c hc
        rw [r2 c hc]
        congr 2
        refine cnt_congr (fun q hq => ?_)
        constructor
        · rintro ⟨⟨a, b⟩ | a, c⟩
          · exact ⟨⟨a, by omega⟩, c⟩
          · subst a; exact ⟨⟨hi, by omega⟩, c⟩
        · rintro ⟨⟨a, b⟩, c⟩
          refine ⟨?_, c⟩
          by_cases hqi : q = i
          · exact Or.inr hqi
          · exact Or.inl ⟨a, by omega⟩
      · intro q hq hle
        by_cases hqi : q = i
        · subst hqi; rw [fupd_self]
        · rw [fupd_ne]
          · exact h5 q hq (by omega)
          · intro heq; exact hqi (slM_inj hr hq hi heq)
      · intro x hx hp
        rw [fupd_ne]
        · exact h6 x hx (fun p a b => hp p a (by omega))
        · intro heq; exact hp i hi (Nat.le_refl _) heq.symm
  · rintro x ⟨A', B', C', h3, h4, h5, h6, h7⟩
    refine ⟨A', B', C', h3, ⟨fun p hp => h5 p hp ?_, fun x hx hp => h6 x hx (fun p a _ => hp p a)⟩, h7⟩
    have := hp.1; omega

/-- `P` lists the LMS positions so that their first characters do not decrease; `r` is the inverse -/
structure LmsList (T : Nat → Nat) (n m : Nat) (P : Nat → Nat) (r : Nat → Nat) : Prop where
  lms : ∀ i, i < m → isLMS T n (P i)
  rP : ∀ i, i < m → r (P i) = i
  Pr : ∀ p, isLMS T n p → r p < m ∧ P (r p) = p
  mono : ∀ i j, i < j → j < m → T (P i) ≤ T (P j)

theorem LmsList.inj {n m : Nat} {P : Nat → Nat} (h : LmsList T n m P r) : RInj T n r := by
  intro p q hp hq heq
  rw [← (h.Pr p hp).2, ← (h.Pr q hq).2, heq]

theorem LmsList.le_slM {n m : Nat} {P : Nat → Nat} (h : LmsList T n m P r) {i : Nat} (hi : i < m) :
    i ≤ slM T n r (P i) := by
  have hp := h.lms i hi
  have z := (slM_zone (r := r) hp).2.2
  have h1 : cnt n (fun q => isLMS T n q ∧ T q ≤ T (P i) ∧ r q < i) +
      cnt n (fun q => isLMS T n q ∧ T q = T (P i) ∧ r (P i) ≤ r q) ≤ bst T n (T (P i) + 1) := by
    rw [← cnt_or (R := fun q => (isLMS T n q ∧ T q ≤ T (P i) ∧ r q < i) ∨ (isLMS T n q ∧ T q = T (P i) ∧ r (P i) ≤ r q))
      (fun q _ => Iff.rfl)]
    · exact cnt_mono (fun q _ hq => by rcases hq with hq | hq <;> omega)
    · rintro q hq ⟨a, b⟩
      rw [h.rP i hi] at b; omega
  have h2 : cnt i (fun _ => True) ≤ cnt n (fun q => isLMS T n q ∧ T q ≤ T (P i) ∧ r q < i) := by
    refine cnt_inj_le P ?_ ?_
    · intro q hq _
      have hl := h.lms q (by omega)
      exact ⟨hl.2.1, hl, h.mono q i hq hi, by rw [h.rP q (by omega)]; exact hq⟩
    · intro a ha b hb _ _ hab
      rw [← h.rP a (by omega), ← h.rP b (by omega), hab]
  rw [cnt_true (fun _ _ => trivial)] at h2
  omega

/-- placement in stage 3: from the sorted list at the start of `SA` -/
theorem place3_spec (X : Ctx e s0 T L) {m : Nat} {P : Nat → Nat} (hP : LmsList T L.n m P r) (hm : m ≤ L.n)
    (h : Rp L s0 s (fun i => if i < m then (P i : Int) else 0) Bf Cf)
    (hB : ∀ c, c < L.k → Bf c = (bst T L.n (c + 1) : Int))
    (hC : L.C ≠ L.B → ∀ c, c < L.k → Cf c = (occ T L.n c : Int)) :
    Tot (loopDown m s fun i s => do
      let j ← s.ld (.sa 0) i
      let s ← s.st (.sa 0) i 0
      let c ← Flbwt.chr e s j
      putEnd L.B c j s) (fun x => ∃ A' Bf' Cf', Rp L s0 x A' Bf' Cf' ∧ Placed T L.n r A' ∧
        (L.C ≠ L.B → ∀ c, c < L.k → Cf' c = (occ T L.n c : Int))) := by
  have hr := hP.inj
  refine Tot.mono (loopDown_spec (fun i x => ∃ A' Bf' Cf', Rp L s0 x A' Bf' Cf' ∧
      BEnd T L.n L.k (fun q => isLMS T L.n q ∧ i ≤ r q) Bf' ∧
      (∀ x, x < i → A' x = P x) ∧
      (∀ q, isLMS T L.n q → i ≤ r q → A' (slM T L.n r q) = q) ∧
      (∀ x, i ≤ x → x < L.n → (∀ p, isLMS T L.n p → i ≤ r p → slM T L.n r p ≠ x) → A' x = 0) ∧
      (L.C ≠ L.B → ∀ c, c < L.k → Cf' c = (occ T L.n c : Int))) m s _ ?_ ?_) ?_
  · refine ⟨_, _, _, h, ?_, ?_, ?_, ?_, hC⟩
    · intro c hc
      rw [hB c hc, cnt_false]; · simp
      rintro q hq ⟨⟨h0, h1⟩, _⟩
      have := (hP.Pr q h0).1; omega
    · intro x hx; exact if_pos hx
    · intro q hq hq2; have := (hP.Pr q hq).1; omega
    · intro x hx _ _; exact if_neg (by omega)
  · rintro i s' hi ⟨A', B', C', h3, h4, h4', h5, h6, h7⟩
    have hl := hP.lms i hi
    have hri := hP.rP i hi
    have hge := hP.le_slM hi
    simp only [Tot_bind]
    rw [h3.toRa.ld (by omega), h4' i (by omega)]
    simp only [Tot_ok]
    obtain ⟨s1, e1, r1⟩ := h3.st X.ok (i := i) (by omega) (v := 0) (X.fit (by omega) (by omega))
    rw [e1]
    simp only [Tot_ok]
    rw [X.chr r1.toRa hl.2.1]
    simp only [Tot_ok]
    refine Tot.mono (putEnd_spec X r1 hr hl h4 ?_) ?_
    · intro q hq
      rw [hri]
      constructor
      · rintro ⟨⟨a, b⟩, c⟩; exact ⟨a, c, by omega⟩
      · rintro ⟨a, b, c⟩; exact ⟨⟨a, by omega⟩, b⟩
    · rintro s'' ⟨B'', C'', r1, r2, r3⟩
      refine ⟨_, _, _, r1, ?_, ?_, ?_, ?_, fun hne c hc => by rw [r3 hne]; exact h7 hne c hc⟩
      · intro c hc
        rw [r2 c hc]
        congr 2
        refine cnt_congr (fun q hq => ?_)
        constructor
        · rintro ⟨⟨a, b⟩ | a, c⟩
          · exact ⟨⟨a, by omega⟩, c⟩
          · subst a; exact ⟨⟨hl, by omega⟩, c⟩
        · rintro ⟨⟨a, b⟩, c⟩
          refine ⟨?_, c⟩
          by_cases hqi : r q = i
          · right; rw [← (hP.Pr q a).2, hqi]
          · exact Or.inl ⟨a, by omega⟩
      · intro x hx
        rw [fupd_ne _ _ (by omega), fupd_ne _ _ (by omega)]
        exact h4' x (by omega)
      · intro q hq hle
        by_cases hqi : r q = i
        · have : q = P i := by rw [← (hP.Pr q hq).2, hqi]
          subst this; rw [fupd_self]
        · have hsl : slM T L.n r q ≠ slM T L.n r (P i) := by
            intro heq; have := slM_inj hr hq hl heq; subst this; omega
          have hge2 := hP.le_slM (hP.Pr q hq).1
          rw [(hP.Pr q hq).2] at hge2
          rw [fupd_ne _ _ hsl, fupd_ne _ _ (by omega)]
          exact h5 q hq (by omega)
      · intro x hx hxn hp
        have hsl : x ≠ slM T L.n r (P i) := fun heq => hp (P i) hl (by omega) heq.symm
        rw [fupd_ne _ _ hsl]
        by_cases hxi : x = i
        · subst hxi; rw [fupd_self]
        · rw [fupd_ne _ _ hxi]
          exact h6 x (by omega) hxn (fun p a b => hp p a (by omega))
  · rintro x ⟨A', B', C', h3, h4, h4', h5, h6, h7⟩
    refine ⟨A', B', C', h3, ⟨fun p hp => h5 p hp (Nat.zero_le _), fun x hx hp => h6 x (Nat.zero_le _) hx (fun p a _ => hp p a)⟩, h7⟩

end Flbwt
