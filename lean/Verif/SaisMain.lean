import Verif.SaisName

/-!
# Proofs about `sais`: recursion, last stage, correctness theorem
-/

namespace Flbwt

open SaStore LawfulSaStore

variable {S : Type} [LawfulSaStore S]
variable {e : Env} {s0 s : St S} {T : Nat → Nat} {L : Lay} {A Bf Cf : Nat → Int} {r : Nat → Nat} {n lim : Nat}

/-- the whole buffer below the limit as contents -/
theorem Ra.widen (h : Ra n lim s0 s A) : Ra lim lim s0 s (fun i => get s.sa i) :=
  ⟨h.sz, Nat.le_refl _, h.hl, h.frame, fun _ _ => rfl⟩

theorem Ra.narrow {m : Nat} (h : Ra n lim s0 s A) (hm : m ≤ n) : Ra m lim s0 s A :=
  ⟨h.sz, by have := h.hn; omega, h.hl, h.frame, fun i hi => h.a i (by omega)⟩

theorem below_half {p i : Nat} (hp : isLMS T n p) (hi : p / 2 = i) :
    cnt n (fun q => isLMS T n q ∧ q / 2 < i + 1) = tix T n p + 1 ∧ cnt n (fun q => isLMS T n q ∧ q / 2 < i) = tix T n p := by
  constructor
  · refine cnt_insert hp.2.1 (fun q hq => ?_) (by simp)
    constructor
    · rintro ⟨a, b⟩
      rcases Nat.lt_trichotomy p q with h | h | h
      · have := lms_gap hp a h; omega
      · exact Or.inr h.symm
      · exact Or.inl ⟨a, h⟩
    · rintro (⟨a, b⟩ | rfl)
      · exact ⟨a, by omega⟩
      · exact ⟨hp, by omega⟩
  · refine cnt_congr (fun q hq => ?_)
    constructor
    · rintro ⟨a, b⟩; exact ⟨a, by omega⟩
    · rintro ⟨a, b⟩
      have := lms_gap a hp b
      exact ⟨a, by omega⟩

theorem gatherNames_spec {fs : Nat} (h : Ra (n + fs) (n + fs) s0 s A) {P : Nat → Nat} {f : Nat → Nat} (hn1 : 1 ≤ n)
    (hA : Names T n P (fun p => (f p : Int)) A) (hf : ∀ p, isLMS T n p → 1 ≤ f p ∧ Fit S ((f p : Int) - 1)) :
    Tot (gatherNames n (lmsN T n) (n + fs - lmsN T n) s) (fun s' => ∃ A', Ra (n + fs) (n + fs) s0 s' A' ∧
      ∀ a, a < lmsN T n → A' (n + fs - lmsN T n + a) = (f (lpos T n a) : Int) - 1) := by
  have hm := lmsN_le (T := T) hn1
  unfold gatherNames
  rw [Tot_bind]
  refine Tot.mono (loopDown_spec (σ := St S × Int) (fun i' x => x.2 = (cnt n (fun p => isLMS T n p ∧ p / 2 < i') : Int) - 1 ∧
      ∃ A', Ra (n + fs) (n + fs) s0 x.1 A' ∧ (∀ y, y < lmsN T n + i' → A' y = A y) ∧
      ∀ p, isLMS T n p → i' ≤ p / 2 → A' (n + fs - lmsN T n + tix T n p) = (f p : Int) - 1) (n - lmsN T n)
      (s, (lmsN T n : Int) - 1) _ ?_ ?_) ?_
  · refine ⟨?_, A, h, fun _ _ => rfl, fun p hp hle => ?_⟩
    · simp only []
      have : cnt n (fun p => isLMS T n p ∧ p / 2 < n - lmsN T n) = lmsN T n :=
        cnt_congr (fun q hq => ⟨fun a => a.1, fun a => ⟨a, by have := half_lt a; omega⟩⟩)
      rw [this]
    · have := half_lt hp; omega
  · rintro i' ⟨s', j⟩ hi' ⟨g1, A', g2, g3, g4⟩
    simp only at g1 g2 ⊢
    have hAx : A' (lmsN T n + i') = A (lmsN T n + i') := g3 _ (by omega)
    simp only [Tot_bind]
    rw [g2.ld (show lmsN T n + i' < n + fs by omega)]
    simp only [Tot_ok]
    have hget : get s'.sa (lmsN T n + i') = A' (lmsN T n + i') := g2.a _ (by omega)
    have hnz : nz s'.sa (lmsN T n + i') = true ↔ A' (lmsN T n + i') ≠ 0 := by rw [nz_get, hget]
    by_cases hex : ∃ p, isLMS T n p ∧ p / 2 = i'
    · obtain ⟨p, hp, hpi⟩ := hex
      have hv : A' (lmsN T n + i') = (f p : Int) := by rw [hAx, ← hpi]; exact hA.at_ p hp
      have hfp := hf p hp
      rw [if_pos (hnz.2 (by rw [hv]; omega))]
      obtain ⟨c1, c2⟩ := below_half hp hpi
      have hj : j = (tix T n p : Int) := by rw [g1, c1]; omega
      have ht := tix_lt hp
      have hadd := tix_add hp
      have habove := lms_above hp
      obtain ⟨s'', e1, r1⟩ := g2.st' (x := n + fs - lmsN T n + tix T n p) (by omega) (v := A' (lmsN T n + i') - 1)
        (by rw [hv]; exact hfp.2) (off := n + fs - lmsN T n) (i := j) (by omega)
      simp only [e1, Tot_bind, Tot_ok]
      refine ⟨by rw [hj, c2], _, r1, fun y hy => ?_, fun q hq hle => ?_⟩
      · rw [fupd_ne _ _ (by omega)]; exact g3 y (by omega)
      · by_cases hqp : q = p
        · subst hqp; rw [fupd_self, hv]
        · rw [fupd_ne]
          · refine g4 q hq ?_
            by_contra hc
            exact hqp (half_inj hq hp (by omega))
          · intro heq; exact hqp (tix_inj hq hp (by omega))
    · have hne : ∀ p, isLMS T n p → p / 2 ≠ i' := fun p hp hh => hex ⟨p, hp, hh⟩
      have hz : A' (lmsN T n + i') = 0 := by
        rw [hAx]
        exact hA.zero _ (by omega) (by omega) (fun p hp hh => hne p hp (by omega))
      rw [if_neg (by rw [hnz, hz]; simp)]
      refine ⟨?_, A', g2, fun y hy => g3 y (by omega), fun p hp hle => g4 p hp (by have := hne p hp; omega)⟩
      simp only [g1]
      rw [cnt_congr (Q := fun p => isLMS T n p ∧ p / 2 < i') (fun q hq => ⟨fun a => ⟨a.1, by have := hne q a.1; omega⟩, fun a => ⟨a.1, by omega⟩⟩)]
  · rintro ⟨s', j⟩ ⟨_, A', g2, _, g4⟩
    refine ⟨A', g2, fun a ha => ?_⟩
    obtain ⟨h1, h2⟩ := lpos_spec ha
    have := g4 _ h1 (Nat.zero_le _)
    rwa [h2] at this

/-! ## After the recursive call -/

theorem afterRec_spec {fs : Nat} (X : Ctx e s0 T L) (hlim : L.lim = L.n + fs)
    (h : Ra L.lim L.lim s0 s A) {u : Nat → Nat} (hu : ∀ a, a < lmsN T L.n → u a < lmsN T L.n)
    (huinj : ∀ a b, a < lmsN T L.n → b < lmsN T L.n → u a = u b → a = b)
    (hA : ∀ a, a < lmsN T L.n → A (u a) = a) :
    Tot (afterRec e L.n (lmsN T L.n) (L.n + fs - lmsN T L.n) s) (fun s' => ∃ A', Ra L.lim L.lim s0 s' A' ∧
      ∀ a, a < lmsN T L.n → A' (u a) = lpos T L.n a) := by
  have hm := lmsN_le (T := T) X.n1
  unfold afterRec
  rw [Tot_bind]
  refine Tot.mono (lmsScan_spec (T := T) (I := fun i x => x.2 = (tix T L.n i : Int) - 1 ∧ ∃ A', Ra L.lim L.lim s0 x.1 A' ∧
      (∀ y, y < lmsN T L.n → A' y = A y) ∧
      ∀ q, isLMS T L.n q → i ≤ q → A' (L.n + fs - lmsN T L.n + tix T L.n q) = q) X.n1 s ((lmsN T L.n : Int) - 1) _ ?_ ?_ X.t63 ?_ ?_) ?_
  · rintro i x ⟨_, A', h1, _⟩ j hj
    exact X.chr (h1.narrow (by omega)) hj
  · refine ⟨?_, A, h, fun _ _ => rfl, fun q hq hle => by have := hq.2.1; omega⟩
    simp only []
    have : tix T L.n L.n = lmsN T L.n := cnt_congr (fun q hq => ⟨fun a => a.1, fun a => ⟨a, hq⟩⟩)
    rw [this]
  · rintro i x h1 h2 hn ⟨g0, A', g1, g2, g3⟩
    refine ⟨?_, A', g1, g2, fun q hq hle => g3 q hq ?_⟩
    · rw [g0]
      have : tix T L.n (i + 1) = tix T L.n i := cnt_congr (fun q hq => ⟨fun a => ⟨a.1, by
        by_contra hc
        have : q = i := by omega
        subst this; exact hn a.1⟩, fun a => ⟨a.1, by omega⟩⟩)
      rw [this]
    · rcases Nat.lt_or_eq_of_le hle with h | h
      · exact h
      · subst h; exact absurd hq hn
  · rintro i ⟨s', j⟩ hi ⟨g0, A', g1, g2, g3⟩
    simp only at g0 g1 ⊢
    have ht := tix_lt hi
    have hin := hi.2.1
    have hts : tix T L.n (i + 1) = tix T L.n i + 1 := by
      refine cnt_insert hi.2.1 (fun q hq => ?_) (by simp)
      constructor
      · rintro ⟨a, b⟩
        by_cases hh : q = i
        · exact Or.inr hh
        · exact Or.inl ⟨a, by omega⟩
      · rintro (⟨a, b⟩ | rfl)
        · exact ⟨a, by omega⟩
        · exact ⟨hi, by omega⟩
    obtain ⟨s'', e1, r1⟩ := g1.st' (x := L.n + fs - lmsN T L.n + tix T L.n i) (by omega) (v := (i : Int))
        (X.fit (by omega) (by omega)) (off := L.n + fs - lmsN T L.n) (i := j) (by omega)
    simp only [e1, Tot_bind, Tot_ok]
    refine ⟨by omega, _, r1, fun y hy => ?_, fun q hq hle => ?_⟩
    · rw [fupd_ne _ _ (by omega)]; exact g2 y hy
    · by_cases hqi : q = i
      · subst hqi; rw [fupd_self]
      · rw [fupd_ne]
        · exact g3 q hq (by omega)
        · intro heq; exact hqi (tix_inj hq hi (by omega))
  · rintro ⟨s', j⟩ ⟨_, A', g1, g2, g3⟩
    simp only at g1 ⊢
    have hra : ∀ a, a < lmsN T L.n → A' (L.n + fs - lmsN T L.n + a) = lpos T L.n a := by
      intro a ha
      obtain ⟨h1, h2⟩ := lpos_spec ha
      have := g3 _ h1 h1.1
      rwa [h2] at this
    have husurj : ∀ x, x < lmsN T L.n → ∃ a, a < lmsN T L.n ∧ u a = x :=
      inj_surj u hu (fun a ha b hb h => huinj a b ha hb h)
    unfold mapBack
    refine Tot.mono (loopUp_spec (fun i x => ∃ A'', Ra L.lim L.lim s0 x A'' ∧
      (∀ a, a < lmsN T L.n → A'' (u a) = if u a < i then (lpos T L.n a : Int) else (a : Int)) ∧
      ∀ a, a < lmsN T L.n → A'' (L.n + fs - lmsN T L.n + a) = lpos T L.n a) 0 (lmsN T L.n) s' _ ?_ ?_) ?_
    · refine ⟨A', g1, fun a ha => ?_, hra⟩
      rw [if_neg (by omega), g2 _ (hu a ha), hA a ha]
    · rintro i x _ hi ⟨A'', k1, k2, k3⟩
      have hil : i < lmsN T L.n := by omega
      obtain ⟨a, ha, hai⟩ := husurj i hil
      have hv : A'' i = a := by rw [← hai, k2 a ha, if_neg (by omega)]
      simp only [Tot_bind]
      rw [k1.ld (show i < L.lim by omega), hv]
      simp only [Tot_ok]
      rw [k1.ld' (x := L.n + fs - lmsN T L.n + a) (by omega) (by omega), k3 a ha]
      simp only [Tot_ok]
      have hlp := (lpos_spec ha).1.2.1
      obtain ⟨s'', e1, r1, _⟩ := k1.st (i := i) (by omega) (v := (lpos T L.n a : Int)) (X.fit (by omega) (by omega))
      rw [e1]
      refine ⟨_, r1, fun b hb => ?_, fun b hb => ?_⟩
      · by_cases hbi : u b = i
        · have := huinj a b ha hb (by omega)
          subst this
          rw [hbi, fupd_self, if_pos (by omega)]
        · rw [fupd_ne _ _ hbi, k2 b hb]
          by_cases hlt : u b < i
          · rw [if_pos hlt, if_pos (by omega)]
          · rw [if_neg hlt, if_neg (by omega)]
      · rw [fupd_ne _ _ (by omega)]; exact k3 b hb
    · rintro x ⟨A'', k1, k2, _⟩
      refine ⟨A'', k1, fun a ha => ?_⟩
      rw [k2 a ha, if_pos (by have := hu a ha; omega)]

/-! ## Stages -/

/-- the layout chosen by `placeCounters` -/
def layOf (n k fs : Nat) : Lay :=
  { n := n, k := k, lim := n + fs
    C := if k ≤ fs then .sa n else .hp
    B := if k ≤ fs then (if k ≤ fs - k then .sa (n + k) else .sa n) else .hp }

theorem layOf_ok (n k fs : Nat) : (layOf n k fs).OK := by
  refine ⟨?_, ?_, ?_⟩
  · simp only [layOf]; split
    · simp only [Ptr.ok]; omega
    · trivial
  · simp only [layOf]; split
    · split
      · simp only [Ptr.ok]; omega
      · simp only [Ptr.ok]; omega
    · trivial
  · simp only [layOf]; split
    · split
      · exact Or.inr ⟨n, n + k, rfl, rfl, Nat.le_refl _⟩
      · exact Or.inl rfl
    · exact Or.inl rfl

theorem placeCounters_spec {k fs : Nat} (junk : Nat → BitVec 64) (h : Ra n (n + fs) s0 s A) :
    (placeCounters n k fs junk s).1 = (layOf n k fs).C ∧ (placeCounters n k fs junk s).2.1 = (layOf n k fs).B ∧
    ∃ Bf Cf, Rp (layOf n k fs) s0 (placeCounters n k fs junk s).2.2 A Bf Cf := by
  unfold placeCounters
  split
  · next hk =>
    refine ⟨by simp [layOf, hk], by simp [layOf, hk], _, _, Ra.toRp (L := layOf n k fs) h ?_⟩
    intro hb
    simp only [layOf, if_pos hk] at hb
    split at hb <;> cases hb
  · next hk =>
    refine ⟨by simp [layOf, hk], by simp [layOf, hk], _, _, Ra.toRp (L := layOf n k fs) ?_ ?_⟩
    · exact ⟨h.sz, h.hn, h.hl, h.frame, h.a⟩
    · intro _
      simp only [size_fresh]
      exact Nat.le_refl _

theorem freeCounters_ra {k fs : Nat} (h : Ra n lim s0 s A) : Ra n lim s0 (freeCounters k fs s) A := by
  unfold freeCounters
  split
  · exact ⟨h.sz, h.hn, h.hl, h.frame, h.a⟩
  · exact h

/-- everything known after stage 1: `P` lists the LMS positions in the order of their first induced sorting -/
structure Stage1 (T : Nat → Nat) (n : Nat) (P r : Nat → Nat) (A : Nat → Int) : Prop where
  names : Names T n P (fun p => (nmf T n P (r p) : Int)) A
  lms : ∀ x, x < lmsN T n → isLMS T n (P x)
  rP : ∀ x, x < lmsN T n → r (P x) = x
  Pr : ∀ p, isLMS T n p → r p < lmsN T n ∧ P (r p) = p
  sorted : ∀ x y, x < y → y < lmsN T n → k2 T n id (P x) < k2 T n id (P y)

theorem stage1_spec {k fs : Nat} (junk : Nat → BitVec 64) (X : Ctx e s0 T (layOf n k fs))
    (h : Ra n (n + fs) s0 s A) :
    Tot (stage1 junk e fs n k s) (fun x => x.2.1 = lmsN T n ∧ ∃ P r A', Ra n (n + fs) s0 x.1 A' ∧ Stage1 T n P r A' ∧
      x.2.2 = (if lmsN T n = 0 then 0 else nmf T n P (lmsN T n - 1))) := by
  have hri : RInj T n id := fun p q _ _ h => h
  unfold stage1
  obtain ⟨e1, e2, Bf, Cf, h1⟩ := placeCounters_spec (k := k) junk h
  generalize hpl : placeCounters n k fs junk s = pl at *
  obtain ⟨C, B, s1⟩ := pl
  simp only at e1 e2 h1 ⊢
  subst e1 e2
  rw [Tot_bind]
  refine (getCounts_spec X h1).mono ?_
  rintro s2 ⟨B2, C2, h2, hc2⟩
  rw [Tot_bind]
  refine (getBuckets_spec X h2 true hc2).mono ?_
  rintro s3 ⟨B3, C3, h3, hb3, hc3⟩
  simp only [if_true] at hb3
  rw [Tot_bind]
  refine (clearFrom_spec X h3 0 (Nat.zero_le _)).mono ?_
  intro s4 h4
  simp only [Nat.not_lt_zero, if_false] at h4
  rw [Tot_bind]
  refine (place1_spec X h4 hb3 hc3).mono ?_
  rintro ⟨s5, _⟩ ⟨A5, B5, C5, h5, hp5, hc5⟩
  simp only at h5 ⊢
  rw [Tot_bind]
  refine (induceSA_spec X hri h5 hp5 hc5).mono ?_
  rintro s6 ⟨A6, B6, C6, h6, ha6⟩
  rw [Tot_bind]
  refine (compact_spec X hri (freeCounters_ra h6.toRa) ha6).mono ?_
  rintro ⟨s7, m⟩ ⟨hm, A7, h7, ha7⟩
  simp only at hm h7 ⊢
  have hLn : (layOf n k fs).n = n := rfl
  rw [hLn] at hm ha7
  subst hm
  have hz : Fit S (0 : Int) := X.fit (by omega) (by omega)
  rw [Tot_bind]
  refine (clearFrom_ra hz h7 (lmsN T n)).mono ?_
  intro s8 h8
  -- the list
  have hPval : ∀ x, x < lmsN T n → ∃ p, isLMS T n p ∧ lix T n id p = x ∧ (A7 x).toNat = p := by
    intro x hx
    obtain ⟨p, hp1, hp2⟩ := lix_surj (T := T) hri x hx
    refine ⟨p, hp1, hp2, ?_⟩
    rw [← hp2, ha7 p hp1]; simp
  have hPcast : ∀ x, x < lmsN T n → A7 x = ((A7 x).toNat : Int) := by
    intro x hx
    obtain ⟨p, hp1, hp2, hp3⟩ := hPval x hx
    rw [hp3, ← hp2, ha7 p hp1]
  have hPlms : ∀ x, x < lmsN T n → isLMS T n (A7 x).toNat := by
    intro x hx
    obtain ⟨p, hp1, hp2, hp3⟩ := hPval x hx
    rw [hp3]; exact hp1
  have hrP : ∀ x, x < lmsN T n → lix T n id (A7 x).toNat = x := by
    intro x hx
    obtain ⟨p, hp1, hp2, hp3⟩ := hPval x hx
    rw [hp3]; exact hp2
  have hPr : ∀ p, isLMS T n p → lix T n id p < lmsN T n ∧ (A7 (lix T n id p)).toNat = p := by
    intro p hp
    refine ⟨lix_lt hp, ?_⟩
    rw [ha7 p hp]; simp
  rw [Tot_bind]
  refine (lens_spec X h8 (P := fun x => (A7 x).toNat) (fun x hx => ?_) (fun x hx1 hx2 => ?_)).mono ?_
  · rw [hLn] at hx
    simp only [if_pos hx]; exact hPcast x hx
  · rw [hLn] at hx1
    rw [if_neg (by omega)]
  rintro ⟨s9, _⟩ ⟨A9, h9, hn9⟩
  simp only at h9 ⊢
  rw [Tot_bind]
  refine (nameSubstrings_spec X h9 (r := lix T n id) hPlms hrP hPr hn9).mono ?_
  rintro ⟨s10, name⟩ ⟨hname, A10, h10, hn10⟩
  refine ⟨rfl, _, _, A10, h10, ⟨hn10, hPlms, hrP, hPr, ?_⟩, hname⟩
  intro x y hxy hy
  have l1 := hPlms x (by omega)
  have l2 := hPlms y hy
  rw [← rk_lt_iff l1.2.1 l2.2.1, ← lix_lt_iff l1 hri l2, hrP x (by omega), hrP y hy]
  exact hxy

theorem stage3_spec {k fs : Nat} (junk : Nat → BitVec 64) (X : Ctx e s0 T (layOf n k fs))
    (h : Ra n (n + fs) s0 s A) {P : Nat → Nat} (hP : LmsList T n (lmsN T n) P r)
    (hA : ∀ x, x < lmsN T n → A x = P x) :
    Tot (stage3 junk e fs n k (lmsN T n) s) (fun s' => ∃ A', Ra n (n + fs) s0 s' A' ∧
      ∀ p, p < n → A' (rk T n r p) = p) := by
  have hn1 : 1 ≤ n := X.n1
  have hm := lmsN_le (T := T) hn1
  unfold stage3
  obtain ⟨e1, e2, Bf, Cf, h1⟩ := placeCounters_spec (k := k) junk h
  generalize hpl : placeCounters n k fs junk s = pl at *
  obtain ⟨C, B, s1⟩ := pl
  simp only at e1 e2 h1 ⊢
  subst e1 e2
  rw [Tot_bind]
  refine (getCounts_spec X h1).mono ?_
  rintro s2 ⟨B2, C2, h2, hc2⟩
  rw [Tot_bind]
  refine (getBuckets_spec X h2 true hc2).mono ?_
  rintro s3 ⟨B3, C3, h3, hb3, hc3⟩
  simp only [if_true] at hb3
  rw [Tot_bind]
  refine (clearFrom_spec X h3 (lmsN T n) (show lmsN T n ≤ n by omega)).mono ?_
  intro s4 h4
  have h4' : Rp (layOf n k fs) s0 s4 (fun i => if i < lmsN T n then (P i : Int) else 0) B3 C3 :=
    ⟨h4.toRa.congr fun i _ => by
      by_cases hi : i < lmsN T n
      · rw [if_pos hi, if_pos hi, hA i hi]
      · rw [if_neg hi, if_neg hi], h4.b, h4.c, h4.hp⟩
  rw [Tot_bind]
  refine (place3_spec X (L := layOf n k fs) hP (show lmsN T n ≤ n by omega) h4' hb3 hc3).mono ?_
  rintro s5 ⟨A5, B5, C5, h5, hp5, hc5⟩
  rw [Tot_bind]
  refine (induceSA_spec X hP.inj h5 hp5 hc5).mono ?_
  rintro s6 ⟨A6, B6, C6, h6, ha6⟩
  exact ⟨A6, freeCounters_ra h6.toRa, ha6⟩

/-! ## Correctness -/

/-- rank of a suffix: the number of smaller suffixes -/
noncomputable def srank (T : Nat → Nat) (n p : Nat) : Nat := cnt n (fun q => sfx T n q < sfx T n p)

theorem srank_lt {p : Nat} (hp : p < n) : srank T n p < n := cnt_lt_of_not hp (lt_irrefl _)

theorem srank_lt_iff {p q : Nat} (hp : p < n) : srank T n p < srank T n q ↔ sfx T n p < sfx T n q := by
  constructor
  · intro h
    by_contra hc
    have : srank T n q ≤ srank T n p := cnt_mono (fun x _ hx => lt_of_lt_of_le hx (not_lt.1 hc))
    omega
  · intro h
    exact cnt_lt (fun x _ hx => lt_trans hx h) hp h (lt_irrefl _)

theorem srank_inj {p q : Nat} (hp : p < n) (hq : q < n) (h : srank T n p = srank T n q) : p = q := by
  rcases lt_trichotomy (sfx T n p) (sfx T n q) with h1 | h1 | h1
  · have := (srank_lt_iff hp).2 h1; omega
  · exact sfx_inj (Nat.le_of_lt hp) (Nat.le_of_lt hq) h1
  · have := (srank_lt_iff hq).2 h1; omega

/-- the first character does not decrease along the suffix order -/
theorem T_le_of_sfx_lt {p q : Nat} (hp : p < n) (hq : q < n) (h : sfx T n p < sfx T n q) : T p ≤ T q := by
  rw [sfx_cons hp, sfx_cons hq, List.cons_lt_cons_iff] at h
  rcases h with h | h
  · omega
  · omega

theorem rk_eq_srank {m : Nat} {P : Nat → Nat} (hP : LmsList T n m P r)
    (hs : ∀ x y, x < y → y < m → sfx T n (P x) < sfx T n (P y)) {p : Nat} (hp : p < n) :
    rk T n r p = srank T n p := by
  refine cnt_congr (fun q hq => ?_)
  refine k2_sfx_iff hP.inj ?_ (Nat.le_of_lt hq) (Nat.le_of_lt hp)
  intro a b ha hb _ hlt
  have := hs _ _ hlt (hP.Pr b hb).1
  rwa [(hP.Pr a ha).2, (hP.Pr b hb).2] at this

/-- `sais` computes the suffix array. -/
theorem sais_spec (junk : Nat → Nat → BitVec 64) (fuel : Nat) (e : Env) (fs n k : Nat) (s : St S) (T : Nat → Nat)
    (hn : 1 ≤ n) (hnw : (n : Int) < (2 : Int) ^ (width S - 1)) (hkw : (k : Int) ≤ (2 : Int) ^ (width S - 1))
    (hT : ∀ i, i < n → T i < k) (htxt : TextAt e s T n (n + fs)) (hsz : n + fs ≤ size s.sa) (hfuel : n < 2 ^ fuel) :
    Tot (sais junk fuel e fs n k s) (fun s' => ∃ A', Ra n (n + fs) s s' A' ∧ ∀ p, p < n → A' (srank T n p) = p) := by
  induction fuel generalizing e fs n k s T with
  | zero => simp at hfuel; omega
  | succ fuel ih =>
    have X : Ctx e s T (layOf n k fs) := ⟨layOf_ok n k fs, htxt, hT, hn, hnw, hkw⟩
    have h0 : Ra n (n + fs) s s (fun i => get s.sa i) := ⟨rfl, by omega, hsz, fun _ _ => rfl, fun _ _ => rfl⟩
    have hm := lmsN_le (T := T) hn
    unfold sais
    rw [Tot_bind]
    refine (stage1_spec (junk fuel) X h0).mono ?_
    rintro ⟨s1, m, name⟩ ⟨hmm, P, r, A1, h1, g, hname⟩
    simp only at hmm h1 hname ⊢
    subst hmm
    -- the last stage, common to both branches
    have hfin : ∀ (s2 : St S) (A2 : Nat → Int) (P2 r2 : Nat → Nat), Ra n (n + fs) s s2 A2 → LmsList T n (lmsN T n) P2 r2 →
        (∀ x, x < lmsN T n → A2 x = P2 x) → (∀ x y, x < y → y < lmsN T n → sfx T n (P2 x) < sfx T n (P2 y)) →
        Tot (stage3 (junk fuel) e fs n k (lmsN T n) s2) (fun s' => ∃ A', Ra n (n + fs) s s' A' ∧
          ∀ p, p < n → A' (srank T n p) = p) := by
      intro s2 A2 P2 r2 g1 g2 g3 g4
      refine (stage3_spec (junk fuel) X g1 g2 g3).mono ?_
      rintro s3 ⟨A3, k1, k2⟩
      refine ⟨A3, k1, fun p hp => ?_⟩
      rw [← rk_eq_srank g2 g4 hp]; exact k2 p hp
    have hnmlt : ∀ i j, i < lmsN T n → j < lmsN T n → nmf T n P i < nmf T n P j → sfx T n (P i) < sfx T n (P j) :=
      fun i j hi hj hlt => nmf_lt (fun x hx => (g.lms x hx).2.1) g.sorted hi hj hlt
    by_cases hlt : name < lmsN T n
    · rw [if_pos hlt]
      simp only [Tot_bind]
      have hm0 : lmsN T n ≠ 0 := by omega
      rw [if_neg hm0] at hname
      have hwide := h1.widen
      have hnames : Names T n P (fun p => (nmf T n P (r p) : Int)) (fun i => get s1.sa i) :=
        ⟨fun x hx => by rw [h1.a x (by omega)]; exact g.names.lo x hx,
         fun p hp => by rw [h1.a _ (half_lt hp)]; exact g.names.at_ p hp,
         fun x hx1 hx2 hx3 => by rw [h1.a x hx2]; exact g.names.zero x hx1 hx2 hx3⟩
      refine (gatherNames_spec hwide hn hnames (fun p hp => ⟨nmf_pos _, ?_⟩)).mono ?_
      · have := nmf_le (T := T) (n := n) (P := P) (r p)
        have := nmf_pos (T := T) (n := n) (P := P) (r p)
        have := (g.Pr p hp).1
        exact Fit.of_le hnw (by omega) (by omega)
      rintro s2 ⟨A2, h2, hR⟩
      -- the reduced string
      have hRle : ∀ a, a < lmsN T n → nmf T n P (r (lpos T n a)) ≤ name := by
        intro a ha
        rw [hname]
        have := (g.Pr _ (lpos_spec ha).1).1
        exact nmf_mono (by omega)
      have hRpos : ∀ a, 1 ≤ nmf T n P (r (lpos T n a)) := fun a => nmf_pos _
      have hnaming : Naming T n (fun a => nmf T n P (r (lpos T n a)) - 1) := by
        refine ⟨fun a b ha hb hab => ?_, fun a b ha hb hab => ?_⟩
        · have p1 := hRpos a; have p2 := hRpos b
          have hab' : nmf T n P (r (lpos T n a)) = nmf T n P (r (lpos T n b)) := by omega
          have q1 := (g.Pr _ (lpos_spec ha).1).2
          have q2 := (g.Pr _ (lpos_spec hb).1).2
          rcases Nat.le_total (r (lpos T n a)) (r (lpos T n b)) with hle | hle
          · have := nmf_eq hle hab'
            rwa [q1, q2] at this
          · have := nmf_eq hle hab'.symm
            rw [q1, q2] at this
            exact this.symm
        · skip
          have q1 := (g.Pr _ (lpos_spec ha).1)
          have q2 := (g.Pr _ (lpos_spec hb).1)
          have := hnmlt _ _ q1.1 q2.1 (by omega)
          rwa [q1.2, q2.2] at this
      have hrec := ih { e with txt := .ptr (n + fs - lmsN T n), cs := width S } (fs + n - lmsN T n * 2) (lmsN T n) name s2
        (fun a => nmf T n P (r (lpos T n a)) - 1) (by omega) (by omega) (by omega)
        (fun a ha => by have := hRle a ha; have := hRpos a; omega)
        (by
          refine ⟨rfl, by omega, by have := h2.sz; have := h2.hl; omega, fun a ha => ?_⟩
          rw [h2.a _ (by omega), hR a ha]
          have := hRpos a
          simp only
          omega)
        (by have := h2.sz; have := h2.hl; omega) (by rw [Nat.pow_succ] at hfuel; omega)
      refine hrec.mono ?_
      rintro s3 ⟨A3, h3, hsa⟩
      have hLlim : (layOf n k fs).lim = n + fs := rfl
      have h3' : Ra (n + fs) (n + fs) s s3 (fun i => get s3.sa i) :=
        ⟨by rw [h3.sz]; exact h2.sz, Nat.le_refl _, hsz, fun x hx => by rw [h3.frame x (by omega)]; exact h2.frame x hx,
          fun _ _ => rfl⟩
      have hsrl : ∀ a, a < lmsN T n → srank (fun a => nmf T n P (r (lpos T n a)) - 1) (lmsN T n) a < lmsN T n :=
        fun a ha => srank_lt ha
      refine Tot.mono (afterRec_spec (fs := fs) X hLlim h3' (u := srank (fun a => nmf T n P (r (lpos T n a)) - 1) (lmsN T n)) hsrl
        (fun a b ha hb h => srank_inj ha hb h) (fun a ha => by
          show get s3.sa _ = _
          rw [h3.a _ (srank_lt ha)]; exact hsa a ha)) ?_
      rintro s4 ⟨A4, h4, ha4⟩
      have hLn : (layOf n k fs).n = n := rfl
      rw [hLn] at ha4
      generalize hRd : (fun a => nmf T n P (r (lpos T n a)) - 1) = R at *
      have husurj : ∀ x, x < lmsN T n → ∃ a, a < lmsN T n ∧ srank R (lmsN T n) a = x :=
        inj_surj _ hsrl (fun a ha b hb h => srank_inj ha hb h)
      have hPx : ∀ x, x < lmsN T n → ∃ a, a < lmsN T n ∧ srank R (lmsN T n) a = x ∧ (A4 x).toNat = lpos T n a ∧
          A4 x = ((A4 x).toNat : Int) := by
        intro x hx
        obtain ⟨a, ha, hax⟩ := husurj x hx
        refine ⟨a, ha, hax, ?_, ?_⟩ <;> rw [← hax, ha4 a ha] <;> simp
      have hsorted : ∀ x y, x < y → y < lmsN T n → sfx T n (A4 x).toNat < sfx T n (A4 y).toNat := by
        intro x y hxy hy
        obtain ⟨a, ha, hax, hav, _⟩ := hPx x (by omega)
        obtain ⟨b, hb, hbx, hbv, _⟩ := hPx y hy
        rw [hav, hbv]
        refine hnaming.sfx_lt (Nat.le_of_lt ha) (Nat.le_of_lt hb) ((srank_lt_iff ha).1 (by omega))
      have hlmsx : ∀ x, x < lmsN T n → isLMS T n (A4 x).toNat := by
        intro x hx
        obtain ⟨a, ha, hax, hav, _⟩ := hPx x hx
        rw [hav]; exact (lpos_spec ha).1
      refine hfin s4 A4 (fun x => (A4 x).toNat) (fun p => srank R (lmsN T n) (tix T n p)) (h4.narrow (by rw [hLlim]; omega)) ?_
        (fun x hx => (hPx x hx).choose_spec.2.2.2) hsorted
      refine ⟨hlmsx, fun x hx => ?_, fun p hp => ?_, fun x y hxy hy => ?_⟩
      · obtain ⟨a, ha, hax, hav, _⟩ := hPx x hx
        rw [hav, (lpos_spec ha).2, hax]
      · have ht := tix_lt hp
        refine ⟨hsrl _ ht, ?_⟩
        rw [ha4 _ ht, lpos_tix hp]; simp
      · exact T_le_of_sfx_lt (hlmsx x (by omega)).2.1 (hlmsx y hy).2.1 (hsorted x y hxy hy)
    · rw [if_neg hlt]
      simp only [Tot_bind, Tot_ok]
      have hinj : ∀ i, i < lmsN T n → nmf T n P i = i + 1 := by
        intro i hi
        rw [if_neg (by omega)] at hname
        by_contra hne
        have hle := nmf_le (T := T) (n := n) (P := P) i
        have hgap : ∀ d, i + d < lmsN T n → nmf T n P (i + d) ≤ i + d := by
          intro d
          induction d with
          | zero => intro _; show nmf T n P i ≤ i; omega
          | succ d ihd =>
            intro hd
            have := ihd (by omega)
            rw [show i + (d + 1) = i + d + 1 by omega, nmf]
            split <;> omega
        have := hgap (lmsN T n - 1 - i) (by omega)
        rw [show i + (lmsN T n - 1 - i) = lmsN T n - 1 by omega] at this
        omega
      have hsorted : ∀ x y, x < y → y < lmsN T n → sfx T n (P x) < sfx T n (P y) := by
        intro x y hxy hy
        apply hnmlt x y (by omega) hy
        rw [hinj x (by omega), hinj y hy]; omega
      refine hfin s1 A1 P r h1 ⟨g.lms, g.rP, g.Pr, fun x y hxy hy => ?_⟩ g.names.lo hsorted
      exact T_le_of_sfx_lt (g.lms x (by omega)).2.1 (g.lms y hy).2.1 (hsorted x y hxy hy)

end Flbwt
