import Verif.SaisMem

/-!
# Proofs about `sais`: counting, buckets, LMS scan, placement of LMS positions
-/

namespace Flbwt

open SaStore LawfulSaStore

variable {S : Type} [LawfulSaStore S]

/-- no integer type is wider than 64 bits -/
theorem pow63 : (2 : Int) ^ (width S - 1) ≤ (2 : Int) ^ 63 := by
  have h := Nat.pow_le_pow_right (n := 2) (by decide) (show width S - 1 ≤ 63 by have := LawfulSaStore.w64 (S := S); omega)
  exact_mod_cast h

/-- an S position is followed by a larger character -/
theorem isS_lt {T : Nat → Nat} {n p : Nat} (hp : p < n) (h : isS T n p = true) : ∃ q, q < n ∧ T p < T q := by
  have hp1 := isS_lt_n hp h
  rw [isS_step hp1] at h
  by_cases h1 : T p < T (p + 1)
  · exact ⟨p + 1, hp1, h1⟩
  · simp only [Bool.or_eq_true, Bool.and_eq_true, decide_eq_true_eq] at h
    rcases h with h | ⟨h2, h3⟩
    · exact absurd h h1
    · obtain ⟨q, h4, h5⟩ := isS_lt hp1 h3
      exact ⟨q, h4, by omega⟩
termination_by n - p

/-- standing assumptions for one call of `sais` -/
structure Ctx (e : Env) (s0 : St S) (T : Nat → Nat) (L : Lay) : Prop where
  ok : L.OK
  txt : TextAt e s0 T L.n L.lim
  hT : ∀ i, i < L.n → T i < L.k
  n1 : 1 ≤ L.n
  nw : (L.n : Int) < (2 : Int) ^ (width S - 1)
  kw : (L.k : Int) ≤ (2 : Int) ^ (width S - 1)

variable {e : Env} {s0 s : St S} {T : Nat → Nat} {L : Lay} {A Bf Cf : Nat → Int}

theorem Ctx.fit (X : Ctx e s0 T L) {v : Int} (h1 : -(L.n : Int) - 1 ≤ v) (h2 : v ≤ L.n) : Fit S v :=
  Fit.of_le X.nw h1 h2

theorem Ctx.fitT (X : Ctx e s0 T L) {p : Nat} (h : p < L.n) : Fit S (T p : Int) := by
  have := X.hT p h; have := X.kw; constructor <;> omega

theorem Ctx.n63 (X : Ctx e s0 T L) : (L.n : Int) < (2 : Int) ^ 63 := Int.lt_of_lt_of_le X.nw pow63

theorem Ctx.addI (X : Ctx e s0 T L) {a b : Nat} (h : a + b < L.n) : addI64 (a : Int) (b : Int) = .ok ((a + b : Nat) : Int) := by
  have := X.n63
  rw [addI64_ok (by omega) (by omega)]
  congr 1

theorem Ctx.toI (X : Ctx e s0 T L) {p : Nat} (h : p < L.n) (h63 : T p < 2 ^ 63) : toI64 (T p : Int) = T p :=
  toI64_eq (by omega)

theorem Ctx.t63 (X : Ctx e s0 T L) (p : Nat) (h : p < L.n) : T p < 2 ^ 63 := by
  have h1 := X.hT p h
  have h2 := X.kw
  have h3 := pow63 (S := S)
  omega

theorem Ctx.chr (X : Ctx e s0 T L) (h : Ra L.n L.lim s0 s A) {i : Nat} (hi : i < L.n) :
    Flbwt.chr e s (i : Int) = .ok (T i : Int) := X.txt.chr h hi

/-- number of occurrences of a character -/
noncomputable def occ (T : Nat → Nat) (n c : Nat) : Nat := cnt n (fun q => T q = c)

theorem occ_le (n c : Nat) : occ T n c ≤ n := cnt_le _ _

theorem bst_zero (n : Nat) : bst T n 0 = 0 := cnt_false (fun q _ => by omega)

theorem getCounts_spec (X : Ctx e s0 T L) (h : Rp L s0 s A Bf Cf) :
    Tot (getCounts e L.C L.n L.k s) (fun s' => ∃ Bf' Cf', Rp L s0 s' A Bf' Cf' ∧
      ∀ c, c < L.k → Cf' c = (occ T L.n c : Int)) := by
  have hz : Fit S (0 : Int) := X.fit (by omega) (by omega)
  unfold getCounts
  rw [Tot_bind]
  have l1 := loopUp_spec (σ := St S) (fun i s' => ∃ Bf' Cf', Rp L s0 s' A Bf' Cf' ∧ ∀ c, c < i → Cf' c = 0) 0 L.k s
    (fun i s => s.st L.C i 0) ⟨Bf, Cf, h, fun c hc => by omega⟩ (by
      rintro i s' _ hi ⟨B', C', h1, h2⟩
      obtain ⟨s'', e1, e2⟩ := h1.stC X.ok (c := i) (by omega) hz
      rw [e1]
      refine ⟨_, _, e2, fun c hc => ?_⟩
      unfold fupd
      split
      · rfl
      · exact h2 c (by omega))
  refine l1.mono ?_
  rintro s1 ⟨B1, C1, h1, h2⟩
  have l2 := loopUp_spec (σ := St S) (fun i s' => ∃ Bf' Cf', Rp L s0 s' A Bf' Cf' ∧
      ∀ c, c < L.k → Cf' c = (occ T i c : Int)) 0 L.n s1
    (fun i s => do
      let c ← Flbwt.chr e s i
      let v ← s.ld L.C c
      s.st L.C c (v + 1)) ⟨B1, C1, h1, fun c hc => by rw [h2 c (by omega)]; simp [occ, cnt]⟩ (by
      rintro i s' _ hi ⟨B', C', h1, h2⟩
      have hi' : i < L.n := by omega
      have hc := X.hT i hi'
      simp only [Tot_bind]
      rw [X.chr h1.toRa hi']
      simp only [Tot_ok]
      rw [h1.ldC X.ok hc]
      simp only [Tot_ok]
      have hle := occ_le (T := T) i (T i)
      obtain ⟨s'', e1, e2⟩ := h1.stC X.ok hc (v := C' (T i) + 1)
        (X.fit (by rw [h2 _ hc]; omega) (by rw [h2 _ hc]; omega))
      rw [e1]
      refine ⟨_, _, e2, fun c hc' => ?_⟩
      unfold fupd
      have hcs : occ T (i + 1) c = occ T i c + if T i = c then 1 else 0 := by unfold occ; rw [cnt_succ]
      rw [hcs]
      split
      · next hh => subst hh; rw [h2 _ hc]; simp
      · next hh => rw [h2 _ hc', if_neg (fun h => hh h.symm)]; simp)
  rw [Nat.zero_add] at l2
  exact l2

theorem getBuckets_spec (X : Ctx e s0 T L) (h : Rp L s0 s A Bf Cf) (fin : Bool)
    (hC : ∀ c, c < L.k → Cf c = (occ T L.n c : Int)) :
    Tot (getBuckets L.C L.B L.k fin s) (fun s' => ∃ Bf' Cf', Rp L s0 s' A Bf' Cf' ∧
      (∀ c, c < L.k → Bf' c = (bst T L.n (if fin then c + 1 else c) : Int)) ∧
      (L.C ≠ L.B → ∀ c, c < L.k → Cf' c = (occ T L.n c : Int))) := by
  unfold getBuckets
  rw [Tot_bind]
  have l2 := loopUp_spec (σ := Nat × St S) (fun i r => r.1 = bst T L.n i ∧ ∃ Bf' Cf', Rp L s0 r.2 A Bf' Cf' ∧
      (∀ c, c < i → Bf' c = (bst T L.n (if fin then c + 1 else c) : Int)) ∧
      (∀ c, (i ≤ c ∨ L.C ≠ L.B) → c < L.k → Cf' c = (occ T L.n c : Int))) 0 L.k (0, s)
    (fun i (sum, s) => do
      let v ← s.ld L.C i
      let sum := addU64 sum (toU64 v)
      let s ← s.st L.B i (toI64 (if fin then sum else subU64 sum (toU64 v) : Nat))
      .ok (sum, s)) ⟨(bst_zero _).symm, Bf, Cf, h, fun c hc => by omega, fun c _ hc => hC c hc⟩ (by
      rintro i ⟨sum, s'⟩ _ hi ⟨hs, B', C', h1, h2, h3⟩
      have hik : i < L.k := by omega
      simp only at hs
      simp only [Tot_bind]
      rw [h1.ldC X.ok hik]
      simp only [Tot_ok]
      have e0 := h3 i (Or.inl (by omega)) hik
      have hb := bst_le (T := T) (n := L.n) (i + 1)
      have hb2 : bst T L.n (i + 1) = bst T L.n i + occ T L.n i := bst_succ i
      have hn63 : (L.n : Int) < (2 : Int) ^ 63 := Int.lt_of_lt_of_le X.nw pow63
      have hu : toU64 (C' i) = occ T L.n i := by rw [e0, toU64_eq (by omega)]; exact Int.toNat_natCast _
      have hadd : addU64 sum (toU64 (C' i)) = bst T L.n (i + 1) := by
        rw [hu, hs, addU64_eq (by omega), hb2]
      have hval : toI64 ((if fin = true then addU64 sum (toU64 (C' i)) else
          subU64 (addU64 sum (toU64 (C' i))) (toU64 (C' i)) : Nat) : Int) =
        (bst T L.n (if fin then i + 1 else i) : Int) := by
        rw [hadd, hu, subU64_eq (by omega)]
        cases fin
        · rw [if_neg (by simp), if_neg (by simp), toI64_eq (by omega)]; omega
        · rw [if_pos rfl, if_pos rfl, toI64_eq (by omega)]
      have hle : bst T L.n (if fin then i + 1 else i) ≤ L.n := bst_le _
      obtain ⟨s'', e1, e2⟩ := h1.stB X.ok (c := i) hik (v := toI64 ((if fin = true then addU64 sum (toU64 (C' i)) else
          subU64 (addU64 sum (toU64 (C' i))) (toU64 (C' i)) : Nat) : Int))
        (X.fit (by rw [hval]; omega) (by rw [hval]; omega))
      rw [e1]
      simp only [Tot_ok]
      refine ⟨hadd, _, _, e2, fun c hc => ?_, fun c hc hck => ?_⟩
      · by_cases hci : c = i
        · subst hci; rw [fupd_self, hval]
        · rw [fupd_ne _ _ hci]; exact h2 c (by omega)
      · split
        · next hCB =>
          have hci : c ≠ i := by rcases hc with hc | hc
                                 · omega
                                 · exact absurd hCB hc
          rw [fupd_ne _ _ hci]
          exact h3 c (by rcases hc with hc | hc
                         · left; omega
                         · exact absurd hCB hc) hck
        · next hCB => exact h3 c (Or.inr hCB) hck)
  refine l2.mono ?_
  rintro ⟨sum, s'⟩ ⟨_, B', C', h1, h2, h3⟩
  rw [Nat.zero_add] at h2
  exact ⟨B', C', h1, h2, fun hne c hc => h3 c (Or.inr hne) hc⟩

/-- contents of the counters, whatever they are -/
theorem Ra.toRp (h : Ra L.n L.lim s0 s A) (hhp : L.B = .hp → L.k ≤ size s.hp) :
    Rp L s0 s A (pv s L.B) (pv s L.C) := ⟨h, fun _ _ => rfl, fun _ _ => rfl, hhp⟩

theorem clearFrom_spec (X : Ctx e s0 T L) (h : Rp L s0 s A Bf Cf) (lo : Nat) (hlo : lo ≤ L.n) :
    Tot (clearFrom lo L.n s) (fun s' => Rp L s0 s' (fun i => if i < lo then A i else 0) Bf Cf) := by
  have hz : Fit S (0 : Int) := X.fit (by omega) (by omega)
  unfold clearFrom
  have l1 := loopUp_spec (σ := St S) (fun i s' => Rp L s0 s' (fun j => if lo ≤ j ∧ j < i then 0 else A j) Bf Cf) lo (L.n - lo) s
    (fun i s => s.st (.sa 0) i 0) (by
      have : (fun j => if lo ≤ j ∧ j < lo then 0 else A j) = A := by funext j; rw [if_neg (by omega)]
      rw [this]; exact h) (by
      rintro i s' _ hi h1
      obtain ⟨s'', e1, e2⟩ := h1.st X.ok (i := i) (by omega) hz
      rw [e1]
      have : (fun j => if lo ≤ j ∧ j < i + 1 then 0 else A j) = fupd (fun j => if lo ≤ j ∧ j < i then 0 else A j) i 0 := by
        funext j
        unfold fupd
        by_cases h2 : j = i
        · subst h2; rw [if_pos (by omega), if_pos rfl]
        · rw [if_neg h2]
          by_cases h3 : lo ≤ j ∧ j < i
          · simp only [if_pos h3]; rw [if_pos (by omega)]
          · simp only [if_neg h3]; rw [if_neg (by omega)]
      rw [Tot_ok, this]; exact e2)
  refine l1.mono ?_
  intro s' h'
  exact ⟨⟨h'.sz, h'.hn, h'.hl, h'.frame, fun i hi => by
    rw [h'.a i hi]
    by_cases h3 : i < lo
    · rw [if_neg (by omega), if_pos h3]
    · rw [if_pos (by omega), if_neg h3]⟩, h'.b, h'.c, h'.hp⟩

/-- `lmsScan` calls the action on the LMS positions, in decreasing order. -/
theorem lmsScan_spec {τ : Type} {n : Nat} (I : Nat → St S × τ → Prop) (hn : 1 ≤ n)
    (s : St S) (t : τ) (act : Nat → Int → St S × τ → M (St S × τ))
    (hI : ∀ i x, I i x → ∀ j, j < n → Flbwt.chr e x.1 (j : Int) = .ok (T j : Int))
    (h0 : I n (s, t)) (hb : ∀ p, p < n → T p < 2 ^ 63)
    (hskip : ∀ i x, 1 ≤ i → i < n → ¬ isLMS T n i → I (i + 1) x → I i x)
    (hact : ∀ i x, isLMS T n i → I (i + 1) x → Tot (act i (T i) x) (I i)) :
    Tot (lmsScan e n s t act) (I 1) := by
  unfold lmsScan
  rw [Tot_bind]
  rw [show (n : Int) - 1 = ((n - 1 : Nat) : Int) by omega, hI n _ h0 (n - 1) (by omega), Tot_ok, Tot_bind,
    toI64_eq (by have := hb (n - 1) (by omega); omega)]
  refine Tot.mono (loopDown_spec (σ := Int × Int × St S × τ) (fun i r => r.1 = (if isS T n i then 1 else 0) ∧ r.2.1 = (T i : Int)
      ∧ I (i + 1) r.2.2) (n - 1) ((0 : Int), (T (n - 1) : Int), s, t) _ ?_ ?_) ?_
  · refine ⟨by rw [isS_last hn]; rfl, rfl, ?_⟩
    rw [Nat.sub_add_cancel hn]; exact h0
  · rintro i ⟨c, c1, s, t⟩ hi ⟨h1, h2, h3⟩
    simp only at h1 h2 h3
    simp only [Tot_bind]
    rw [hI _ _ h3 i (by omega)]
    simp only [Tot_ok]
    rw [toI64_eq (by have := hb i (by omega); omega)]
    have hd : c1 + c < (2 : Int) ^ 63 := by
      rw [h1, h2]
      have hb1 := hb (i + 1) (by omega)
      by_cases h : isS T n (i + 1) = true
      · obtain ⟨q, hq, hlt⟩ := isS_lt (by omega) h
        have hb2 := hb q hq
        rw [if_pos h]; omega
      · rw [if_neg h]; omega
    rw [addI64_ok (by rw [h1, h2]; split <;> omega) hd]
    simp only [Tot_ok]
    have hst := isS_step (T := T) (n := n) (p := i) (by omega)
    have hS : (T i : Int) < c1 + c ↔ isS T n i = true := by
      rw [h1, h2, hst]
      by_cases h : isS T n (i + 1) = true
      · simp [h]; omega
      · simp [h]
    split
    · next hlt =>
      rw [hS] at hlt
      refine ⟨by simp [hlt], rfl, ?_⟩
      refine hskip (i + 1) _ (by omega) (by omega) ?_ h3
      rintro ⟨_, _, _, h⟩
      simp [hlt] at h
    · next hlt =>
      rw [hS] at hlt
      have hlt : isS T n i = false := by simpa using hlt
      split
      · next hc =>
        have hS1 : isS T n (i + 1) = true := by
          by_contra hh; rw [h1] at hc; simp [hh] at hc
        have hl : isLMS T n (i + 1) := ⟨by omega, by omega, hS1, by simpa using hlt⟩
        have := hact (i + 1) (s, t) hl h3
        rw [Tot_bind, h2]
        refine this.mono ?_
        rintro ⟨s', t'⟩ h'
        exact ⟨by simp [hlt], rfl, h'⟩
      · next hc =>
        have hS1 : isS T n (i + 1) = false := by
          by_contra hh; rw [h1] at hc; simp [hh] at hc
        refine ⟨by simp [hlt]; omega, rfl, ?_⟩
        refine hskip (i + 1) _ (by omega) (by omega) ?_ h3
        rintro ⟨_, _, h, _⟩
        simp [hS1] at h
  · rintro ⟨c, c1, s, t⟩ ⟨_, _, h⟩
    exact h

end Flbwt
