import Verif.TimeErase
import Verif.SaisMain

/-!
# The number of loop iterations of `sais` is linear
-/

namespace Flbwt

open TM SaStore LawfulSaStore

section
variable {S : Type} [SaStore S]

theorem cost_getCounts (e : Env) (C : Ptr) (n k : Nat) (s : St S) : CostLe (getCountsT e C n k s) (k + n) := by
  unfold getCountsT
  exact (CostLe.bind (CostLe.loopUp (b := 0) fun i s => CostLe.lift _ _)
    (fun v => CostLe.loopUp (b := 0) fun i s => CostLe.lift _ _)).mono (by omega)

theorem cost_getBuckets (C B : Ptr) (k : Nat) (fin : Bool) (s : St S) : CostLe (getBucketsT C B k fin s) k := by
  unfold getBucketsT
  exact (CostLe.bind (b := 0) (CostLe.loopUp (b := 0) fun i s => CostLe.lift _ _) (fun v => CostLe.pure _ _)).mono (by omega)

theorem cost_recount (e : Env) (C B : Ptr) (n k : Nat) (s : St S) : CostLe (recountT e C B n k s) (k + n) :=
  CostLe.ite (cost_getCounts _ _ _ _ _) (CostLe.pure _ _)

theorem cost_induceSA (e : Env) (C B : Ptr) (n k : Nat) (s : St S) : CostLe (induceSAT e C B n k s) (4 * k + 4 * n) := by
  unfold induceSAT
  refine CostLe.mono (a := (k + n) + (k + (0 + (n * (0 + 1) + ((k + n) + (k + (0 + (n * (0 + 1) + 0)))))))) ?_ (by omega)
  refine CostLe.bind (cost_recount _ _ _ _ _ _) fun s => ?_
  refine CostLe.bind (cost_getBuckets _ _ _ _ _) fun s => ?_
  refine CostLe.bind (CostLe.lift _ _) fun x => ?_
  refine CostLe.bind (CostLe.loopUp fun i s => CostLe.lift _ _) fun x => ?_
  refine CostLe.bind (cost_recount _ _ _ _ _ _) fun s => ?_
  refine CostLe.bind (cost_getBuckets _ _ _ _ _) fun s => ?_
  refine CostLe.bind (CostLe.lift _ _) fun b => ?_
  refine CostLe.bind (CostLe.loopDown fun i s => CostLe.lift _ _) fun x => CostLe.pure _ _

theorem cost_lmsScan {τ : Type} (e : Env) (n : Nat) (s : St S) (t : τ) (act : Nat → Int → St S × τ → M (St S × τ)) :
    CostLe (lmsScanT e n s t act) n := by
  unfold lmsScanT
  refine (CostLe.bind (a := 0) (b := n - 1) (CostLe.lift _ _) fun c => ?_).mono (by omega)
  exact (CostLe.bind (b := 0) (CostLe.loopDown (b := 0) fun i s => CostLe.lift _ _) (fun v => CostLe.pure _ _)).mono (by omega)

theorem cost_clearFrom (lo n : Nat) (s : St S) : CostLe (clearFromT lo n s) n :=
  (CostLe.loopUp (b := 0) fun i s => CostLe.lift _ _).mono (by omega)

theorem cost_gatherNames (n m ra : Nat) (s : St S) : CostLe (gatherNamesT n m ra s) n := by
  unfold gatherNamesT
  exact (CostLe.bind (b := 0) (CostLe.loopDown (b := 0) fun i s => CostLe.lift _ _) (fun v => CostLe.pure _ _)).mono (by omega)

theorem cost_mapBack (m ra : Nat) (s : St S) : CostLe (mapBackT m ra s) m :=
  (CostLe.loopUp (b := 0) fun i s => CostLe.lift _ _).mono (by omega)

theorem cost_afterRec (e : Env) (n m ra : Nat) (s : St S) : CostLe (afterRecT e n m ra s) (n + m) :=
  CostLe.bind (cost_lmsScan _ _ _ _ _) fun _ => cost_mapBack _ _ _

theorem cost_stage3 (junk : Nat → BitVec 64) (e : Env) (fs n k m : Nat) (s : St S) :
    CostLe (stage3T junk e fs n k m s) (6 * k + 6 * n + m) := by
  unfold stage3T
  generalize placeCounters n k fs junk s = pl
  obtain ⟨C, B, s⟩ := pl
  refine CostLe.mono (a := (k + n) + (k + (n + (m * (0 + 1) + ((4 * k + 4 * n) + 0))))) ?_ (by omega)
  refine CostLe.bind (cost_getCounts _ _ _ _ _) fun s => ?_
  refine CostLe.bind (cost_getBuckets _ _ _ _ _) fun s => ?_
  refine CostLe.bind (cost_clearFrom _ _ _) fun s => ?_
  refine CostLe.bind (CostLe.loopDown fun i s => CostLe.lift _ _) fun s => ?_
  exact CostLe.bind (cost_induceSA _ _ _ _ _ _) fun s => CostLe.pure _ _

end

section
variable {S : Type} [LawfulSaStore S]
variable {e : Env} {s0 s : St S} {T : Nat → Nat} {L : Lay} {A : Nat → Int} {r : Nat → Nat} {n lim : Nat}

/-! ## Compaction -/

/-- the end of the run of equal characters that begins at `p` -/
theorem run_exists (T : Nat → Nat) (n p : Nat) (hp : p < n) : ∃ d, 0 < d ∧ p + d ≤ n ∧ (∀ q, p ≤ q → q < p + d → T q = T p) ∧
    (p + d < n → T (p + d) ≠ T p) := by
  obtain ⟨m, hm⟩ : ∃ m, n = p + 1 + m := ⟨n - p - 1, by omega⟩
  induction m generalizing n with
  | zero =>
    refine ⟨1, by omega, by omega, fun q h1 h2 => ?_, fun h => by omega⟩
    rw [show q = p by omega]
  | succ m ih =>
    obtain ⟨d, d1, d2, d3, d4⟩ := ih (p + 1 + m) (by omega) rfl
    by_cases h : p + d < p + 1 + m
    · exact ⟨d, d1, by omega, d3, fun _ => d4 h⟩
    · by_cases h2 : T (p + d) = T p
      · refine ⟨d + 1, by omega, by omega, fun q h3 h4 => ?_, fun _ => by omega⟩
        by_cases hq : q = p + d
        · rw [hq, h2]
        · exact d3 q h3 (by omega)
      · exact ⟨d, d1, by omega, d3, fun _ => h2⟩

theorem cost_runEnd (X : Ctx e s0 T L) (h : Ra L.n L.lim s0 s A) {p d : Nat} (hd : 0 < d)
    (hend : p + d < L.n → T (p + d) ≠ T p) : CostLe (runEndT e L.n s p (T p : Int)) d := by
  unfold runEndT
  have := CostLe.whileI (fuel := L.n + 1) (s := (p + 1, (T p : Int))) (b := 0) (fun x => x.1 ≤ p + d) (fun x => p + d - x.1)
    (f := fun (j, c1) => TM.lift (
    if j < L.n then do
      let c1 ← chr e s j
      let c1 := toI64 c1
      if (T p : Int) ≠ c1 then .ok (.inr (j, c1)) else .ok (.inl (j + 1, c1))
    else .ok (.inr (j, c1)))) (fun s => CostLe.lift _ _) (by simp only; omega) (by
      rintro ⟨j, c⟩ hj
      simp only at hj ⊢
      rw [erase_lift]
      by_cases hjn : j < L.n
      · rw [if_pos hjn, X.chr h hjn]
        simp only [Tot_bind, Tot_ok, X.toI hjn (X.t63 _ hjn)]
        by_cases hne : (T p : Int) ≠ (T j : Int)
        · rw [if_pos hne]; trivial
        · rw [if_neg hne]
          have : j ≠ p + d := by
            intro heq
            have := hend (by omega)
            rw [← heq] at this
            omega
          exact ⟨by simp only; omega, by simp only; omega⟩
      · rw [if_neg hjn]; trivial)
  exact this.mono (by simp only; omega)

theorem erase_compactBody (e : Env) (n i : Nat) (x : St S × Nat) : erase (compactBodyT e n i x) = (do
      let p ← x.1.ld (.sa 0) i
      if 0 < p then do
        let prev ← Flbwt.chr e x.1 (p - 1)
        let c0 ← Flbwt.chr e x.1 p
        let c0 := toI64 c0
        if loc S prev > c0 then do
          let (j, c1) ← runEnd e n x.1 p.toNat c0
          if j < n ∧ c0 < c1 then do
            let s ← x.1.st (.sa 0) x.2 p
            .ok (s, x.2 + 1)
          else .ok (x.1, x.2)
        else .ok (x.1, x.2)
      else .ok (x.1, x.2)) := by
  simp only [compactBodyT, erase_bind, erase_lift, erase_ite, erase_pure, erase_runEnd, compactStore]

theorem CostLe.liftOk {α β : Type} {x : M α} {a : α} (h : x = .ok a) {f : α → TM β} {b : Nat} (hf : CostLe (f a) b) :
    CostLe (TM.lift x >>= f) b := by
  subst h
  have := CostLe.bindV (x := TM.lift (.ok a)) (P := fun v => v = a) (a := 0) (b := b) (f := f) rfl (CostLe.lift _ _)
    (by rintro v rfl; exact hf)
  exact this.mono (by omega)

/-- The inner loops of the compaction scan disjoint runs: the whole compaction takes at most `2n` iterations. -/
theorem cost_compact (X : Ctx e s0 T L) (hr : RInj T L.n r) (h : Ra L.n L.lim s0 s A)
    (hA : ∀ p, p < L.n → A (rk T L.n r p) = p) : CostLe (compactT e L.n s) (2 * L.n) := by
  -- the run scanned in iteration `i`
  have hw : ∀ i, ∃ pd : Nat × Nat, i < L.n → rk T L.n r pd.1 = i ∧ pd.1 < L.n ∧ 0 < pd.2 ∧ pd.1 + pd.2 ≤ L.n ∧
      (∀ q, pd.1 ≤ q → q < pd.1 + pd.2 → T q = T pd.1) ∧ (pd.1 + pd.2 < L.n → T (pd.1 + pd.2) ≠ T pd.1) := by
    intro i
    by_cases hi : i < L.n
    · obtain ⟨p, hp, hpi⟩ := rk_surj (T := T) hr i hi
      obtain ⟨d, h1, h2, h3, h4⟩ := run_exists T L.n p hp
      exact ⟨(p, d), fun _ => ⟨hpi, hp, h1, h2, h3, h4⟩⟩
    · exact ⟨(0, 0), fun hh => absurd hh hi⟩
  choose pd hpd using hw
  -- it is scanned only if the run begins with a descent
  let w : Nat → Nat := fun i => if 0 < (pd i).1 ∧ T ((pd i).1 - 1) > T (pd i).1 then (pd i).2 else 0
  have hsum : sumUp w 0 L.n ≤ L.n := by
    refine disjoint_sum (fun i => (pd i).1) w L.n L.n ?_ ?_
    · intro i hi
      have := hpd i hi
      simp only [w]; split <;> omega
    · intro i j hi hj hij hwi hwj
      simp only [w] at hwi hwj ⊢
      split at hwi
      · next ci =>
        split at hwj
        · next cj =>
          rw [if_pos ci, if_pos cj]
          obtain ⟨a1, a2, a3, a4, a5, _⟩ := hpd i hi
          obtain ⟨b1, b2, b3, b4, b5, _⟩ := hpd j hj
          have hne : (pd i).1 ≠ (pd j).1 := by intro hh; rw [hh] at a1; omega
          by_contra hc
          rcases Nat.lt_or_gt_of_ne hne with hlt | hlt
          · have e1 := a5 (pd j).1 (by omega) (by omega)
            have e2 := a5 ((pd j).1 - 1) (by omega) (by omega)
            omega
          · have e1 := b5 (pd i).1 (by omega) (by omega)
            have e2 := b5 ((pd i).1 - 1) (by omega) (by omega)
            omega
        · exact absurd rfl hwj
      · exact absurd rfl hwi
  refine (CostLe.loopUpI (CInv S s0 T L r A) w 0 L.n (s, 0) (compactBodyT e L.n) (CInv.start h) ?_).mono (by omega)
  intro i x _ hi hx
  have hi' : i < L.n := by omega
  refine ⟨by rw [erase_compactBody]; exact compact_step X hr hA hi' hx, ?_⟩
  obtain ⟨hm, hmi, A', h1, h2, h3⟩ := hx
  obtain ⟨a1, a2, a3, a4, a5, a6⟩ := hpd i hi'
  have hAi : A' i = (pd i).1 := by rw [h2 i (Nat.le_refl _) hi', ← a1]; rw [a1]; have := hA _ a2; rwa [a1] at this
  unfold compactBodyT
  refine CostLe.liftOk (h1.ld hi') ?_
  rw [hAi]
  by_cases hp0 : 0 < ((pd i).1 : Int)
  · rw [if_pos hp0]
    rw [show ((pd i).1 : Int) - 1 = (((pd i).1 - 1 : Nat) : Int) by omega]
    refine CostLe.liftOk (X.chr h1 (show (pd i).1 - 1 < L.n by omega)) ?_
    refine CostLe.liftOk (X.chr h1 a2) ?_
    rw [loc_fit (X.fitT (show (pd i).1 - 1 < L.n by omega)), X.toI a2 (X.t63 _ a2)]
    by_cases hgt : (T ((pd i).1 - 1) : Int) > (T (pd i).1 : Int)
    · rw [if_pos hgt, Int.toNat_natCast]
      have hwi : w i = (pd i).2 := by
        simp only [w]; rw [if_pos ⟨by omega, by omega⟩]
      rw [hwi]
      exact CostLe.bind (b := 0) (cost_runEnd X h1 a3 a6) (fun v => CostLe.lift _ _)
    · rw [if_neg hgt]; exact CostLe.pure _ _
  · rw [if_neg hp0]; exact CostLe.pure _ _

/-! ## Naming -/

theorem cost_sameBlock (e : Env) (s : St S) (p q : Int) (plen : Nat) : CostLe (sameBlockT e s p q plen) (plen + 1) := by
  unfold sameBlockT
  generalize hb : (fun j => TM.lift (
    if j < plen then do
      let pj ← addI64 p j
      let a ← chr e s pj
      let qj ← addI64 q j
      let b ← chr e s qj
      if a ≠ b then .ok (.inr false) else .ok (.inl (j + 1))
    else .ok (.inr true)) : Nat → TM (Nat ⊕ Bool)) = f
  have : ∀ (fuel : Nat) (j : Nat), CostLe (whileT fuel j f) fuel := by
    intro fuel
    induction fuel with
    | zero => intro j; exact CostLe.lift _ _
    | succ fuel ih =>
      intro j
      unfold whileT
      refine ((CostLe.bind (a := 0) (b := fuel) ?_ ?_).tick).mono (by omega)
      · rw [← hb]; exact CostLe.lift _ _
      · intro r
        cases r with
        | inl j' => exact ih j'
        | inr b => exact CostLe.pure _ _
  exact this _ _

theorem erase_nameBody (e : Env) (m i : Nat) (x : St S × Nat × Int × Int) : erase (nameBodyT e m i x) = (do
      let p ← x.1.ld (.sa 0) i
      let index ← addI64 m (p / 2)
      let plen ← x.1.ld (.sa 0) index
      let same ← sameAs e x.1 p x.2.2.1 plen x.2.2.2
      let y := if same then x.2 else (x.2.1 + 1, p, plen)
      let s ← x.1.st (.sa 0) index y.1
      .ok (s, y)) := by
  simp only [nameBodyT, erase_bind, erase_lift, erase_sameAs, nameStore]

/-- The comparisons look at every LMS substring at most once (as the new one): at most `n + 2m` iterations. -/
theorem cost_nameSubstrings (X : Ctx e s0 T L) (h : Ra L.n L.lim s0 s A) {P : Nat → Nat}
    (hP : ∀ x, x < lmsN T L.n → isLMS T L.n (P x))
    (hrP : ∀ x, x < lmsN T L.n → r (P x) = x) (hPr : ∀ p, isLMS T L.n p → r p < lmsN T L.n ∧ P (r p) = p)
    (hA : Names T L.n P (fun p => ((blk2 T L.n p).length : Int)) A) :
    CostLe (nameSubstringsT e L.n (lmsN T L.n) s) (L.n + 2 * lmsN T L.n) := by
  unfold nameSubstringsT
  have hsum : sumUp (fun i => (blk2 T L.n (P i)).length) 0 (lmsN T L.n) ≤ L.n := by
    refine disjoint_sum P _ L.n _ (fun i hi => (blk2_next (hP i hi).2.1).1) ?_
    intro i j hi hj hij _ _
    have hne : P i ≠ P j := by
      intro hh
      have a := hrP i hi
      have b := hrP j hj
      rw [hh] at a; omega
    obtain ⟨_, _, _, a3, _⟩ := blk2_next (hP i hi).2.1
    obtain ⟨_, _, _, b3, _⟩ := blk2_next (hP j hj).2.1
    by_contra hc
    rcases Nat.lt_or_gt_of_ne hne with hlt | hlt
    · exact a3 (P j) hlt (by omega) (hP j hj)
    · exact b3 (P i) hlt (by omega) (hP i hi)
  have hsum1 : ∀ (w : Nat → Nat) lo cnt, sumUp (fun i => w i + 1) lo cnt = sumUp w lo cnt + cnt := by
    intro w lo cnt
    induction cnt generalizing lo with
    | zero => rfl
    | succ c ih => rw [sumUp, sumUp, ih]; omega
  have key : CostLe (loopUpT 0 (lmsN T L.n) (s, (0 : Nat), (L.n : Int), (0 : Int)) (nameBodyT e (lmsN T L.n)))
      (lmsN T L.n + sumUp (fun i => (blk2 T L.n (P i)).length + 1) 0 (lmsN T L.n)) := by
    refine CostLe.loopUpI (NInv S s0 T L r P) _ 0 _ _ _ (NInv.start h hA) ?_
    intro i x _ hi hx
    have hil : i < lmsN T L.n := by omega
    refine ⟨by rw [erase_nameBody]; exact name_step X hP hrP hPr hil hx, ?_⟩
    obtain ⟨g1, g2, A', g3, g4⟩ := hx
    have hn2 := lmsN_le (T := T) X.n1
    have hl := hP i hil
    have hlt := half_lt hl
    have hlen : A' (lmsN T L.n + P i / 2) = ((blk2 T L.n (P i)).length : Int) := by
      have := g4.at_ (P i) hl
      rwa [hrP i hil, if_neg (by omega)] at this
    unfold nameBodyT
    refine CostLe.liftOk (a := (P i : Int)) (by rw [g3.ld (by omega), g4.lo i hil]) ?_
    rw [show (P i : Int) / 2 = ((P i / 2 : Nat) : Int) by omega]
    refine CostLe.liftOk (X.addI hlt) ?_
    refine CostLe.liftOk (by rw [g3.ld hlt, hlen]) ?_
    refine CostLe.bind (b := 0) ?_ (fun v => CostLe.lift _ _)
    unfold sameAsT
    refine CostLe.ite ?_ (CostLe.pure _ _)
    rw [Int.toNat_natCast]
    exact cost_sameBlock _ _ _ _ _
  rw [hsum1] at key
  exact (CostLe.bind (b := 0) key (fun v => CostLe.pure _ _)).mono (by omega)

theorem cost_stage1 {k fs : Nat} (junk : Nat → BitVec 64) (X : Ctx e s0 T (layOf n k fs)) (h : Ra n (n + fs) s0 s A) :
    CostLe (stage1T junk e fs n k s) (6 * k + 12 * n + 2 * lmsN T n) := by
  have hri : RInj T n id := fun p q _ _ h => h
  unfold stage1T
  obtain ⟨e1, e2, Bf, Cf, h1⟩ := placeCounters_spec (k := k) junk h
  generalize hpl : placeCounters n k fs junk s = pl at *
  obtain ⟨C, B, s1⟩ := pl
  simp only at e1 e2 h1 ⊢
  subst e1 e2
  refine CostLe.mono (a := (k + n) + (k + (n + (n + ((4 * k + 4 * n) + (2 * n + (n + (n + ((n + 2 * lmsN T n) + 0))))))))) ?_ (by omega)
  refine CostLe.bindV (by rw [erase_getCounts]; exact getCounts_spec X h1) (cost_getCounts _ _ _ _ _) ?_
  rintro s2 ⟨B2, C2, h2, hc2⟩
  refine CostLe.bindV (by rw [erase_getBuckets]; exact getBuckets_spec X h2 true hc2) (cost_getBuckets _ _ _ _ _) ?_
  rintro s3 ⟨B3, C3, h3, hb3, hc3⟩
  simp only [if_true] at hb3
  refine CostLe.bindV (by rw [erase_clearFrom]; exact clearFrom_spec X h3 0 (Nat.zero_le _)) (cost_clearFrom _ _ _) ?_
  intro s4 h4
  simp only [Nat.not_lt_zero, if_false] at h4
  refine CostLe.bindV (by rw [erase_lmsScan]; exact place1_spec X h4 hb3 hc3) (cost_lmsScan _ _ _ _ _) ?_
  rintro ⟨s5, _⟩ ⟨A5, B5, C5, h5, hp5, hc5⟩
  simp only at h5 ⊢
  refine CostLe.bindV (by rw [erase_induceSA]; exact induceSA_spec X hri h5 hp5 hc5) (cost_induceSA _ _ _ _ _ _) ?_
  rintro s6 ⟨A6, B6, C6, h6, ha6⟩
  refine CostLe.bindV (by rw [erase_compact]; exact compact_spec X hri (freeCounters_ra h6.toRa) ha6)
    (cost_compact X hri (freeCounters_ra h6.toRa) ha6) ?_
  rintro ⟨s7, m⟩ ⟨hm, A7, h7, ha7⟩
  simp only at hm h7 ⊢
  have hLn : (layOf n k fs).n = n := rfl
  rw [hLn] at hm ha7
  subst hm
  have hz : Fit S (0 : Int) := X.fit (by omega) (by omega)
  refine CostLe.bindV (by rw [erase_clearFrom]; exact clearFrom_ra hz h7 (lmsN T n)) (cost_clearFrom _ _ _) ?_
  intro s8 h8
  have hPval : ∀ x, x < lmsN T n → ∃ p, isLMS T n p ∧ lix T n id p = x ∧ (A7 x).toNat = p := by
    intro x hx
    obtain ⟨p, hp1, hp2⟩ := lix_surj (T := T) hri x hx
    refine ⟨p, hp1, hp2, ?_⟩
    rw [← hp2, ha7 p hp1]; simp
  have hPcast : ∀ x, x < lmsN T n → A7 x = ((A7 x).toNat : Int) := by
    intro x hx
    obtain ⟨p, hp1, hp2, hp3⟩ := hPval x hx
    rw [hp3, ← hp2, ha7 p hp1]
  have hPlms : ∀ x, x < lmsN T n → isLMS T n (A7 x).toNat := by
    intro x hx
    obtain ⟨p, hp1, hp2, hp3⟩ := hPval x hx
    rw [hp3]; exact hp1
  have hrP : ∀ x, x < lmsN T n → lix T n id (A7 x).toNat = x := by
    intro x hx
    obtain ⟨p, hp1, hp2, hp3⟩ := hPval x hx
    rw [hp3]; exact hp2
  have hPr : ∀ p, isLMS T n p → lix T n id p < lmsN T n ∧ (A7 (lix T n id p)).toNat = p := by
    intro p hp
    refine ⟨lix_lt hp, ?_⟩
    rw [ha7 p hp]; simp
  refine CostLe.bindV (by
    rw [erase_lmsScan]
    exact lens_spec X h8 (P := fun x => (A7 x).toNat) (fun x hx => by
      rw [hLn] at hx
      simp only [if_pos hx]; exact hPcast x hx) (fun x hx1 hx2 => by
      rw [hLn] at hx1
      rw [if_neg (by omega)])) (cost_lmsScan _ _ _ _ _) ?_
  rintro ⟨s9, _⟩ ⟨A9, h9, hn9⟩
  simp only at h9 ⊢
  exact CostLe.bind (cost_nameSubstrings X h9 (r := lix T n id) hPlms hrP hPr hn9) (fun v => CostLe.pure _ _)

/-- `sais` takes at most `12k + 56n` loop iterations, all levels of the recursion together. -/
theorem cost_sais (junk : Nat → Nat → BitVec 64) (fuel : Nat) (e : Env) (fs n k : Nat) (s : St S) (T : Nat → Nat)
    (hn : 1 ≤ n) (hnw : (n : Int) < (2 : Int) ^ (width S - 1)) (hkw : (k : Int) ≤ (2 : Int) ^ (width S - 1))
    (hT : ∀ i, i < n → T i < k) (htxt : TextAt e s T n (n + fs)) (hsz : n + fs ≤ size s.sa) :
    CostLe (saisT junk fuel e fs n k s) (12 * k + 56 * n) := by
  induction fuel generalizing e fs n k s T with
  | zero => exact CostLe.lift _ _
  | succ fuel ih =>
    have X : Ctx e s T (layOf n k fs) := ⟨layOf_ok n k fs, htxt, hT, hn, hnw, hkw⟩
    have h0 : Ra n (n + fs) s s (fun i => get s.sa i) := ⟨rfl, by omega, hsz, fun _ _ => rfl, fun _ _ => rfl⟩
    have hm := lmsN_le (T := T) hn
    unfold saisT
    refine CostLe.mono (a := (6 * k + 12 * n + 2 * lmsN T n) + ((n + (68 * lmsN T n + (n + lmsN T n))) + (6 * k + 6 * n + lmsN T n))) ?_ (by omega)
    refine CostLe.bindV (by rw [erase_stage1]; exact stage1_spec (junk fuel) X h0) (cost_stage1 _ X h0) ?_
    rintro ⟨s1, m, name⟩ ⟨hmm, P, r, A1, h1, g, hname⟩
    simp only at hmm h1 hname ⊢
    subst hmm
    refine CostLe.bind ?_ (fun v => cost_stage3 _ _ _ _ _ _ _)
    unfold recurseT
    simp only
    by_cases hlt : name < lmsN T n
    · rw [if_pos hlt]
      have hm0 : lmsN T n ≠ 0 := by omega
      rw [if_neg hm0] at hname
      have hwide := h1.widen
      have hnames : Names T n P (fun p => (nmf T n P (r p) : Int)) (fun i => get s1.sa i) :=
        ⟨fun x hx => by rw [h1.a x (by omega)]; exact g.names.lo x hx,
         fun p hp => by rw [h1.a _ (half_lt hp)]; exact g.names.at_ p hp,
         fun x hx1 hx2 hx3 => by rw [h1.a x hx2]; exact g.names.zero x hx1 hx2 hx3⟩
      refine CostLe.bindV (by
        rw [erase_gatherNames]
        refine gatherNames_spec hwide hn hnames (fun p hp => ⟨nmf_pos _, ?_⟩)
        have := nmf_le (T := T) (n := n) (P := P) (r p)
        have := nmf_pos (T := T) (n := n) (P := P) (r p)
        have := (g.Pr p hp).1
        exact Fit.of_le hnw (by omega) (by omega)) (cost_gatherNames _ _ _ _) ?_
      rintro s2 ⟨A2, h2, hR⟩
      have hRle : ∀ a, a < lmsN T n → nmf T n P (r (lpos T n a)) ≤ name := by
        intro a ha
        rw [hname]
        have := (g.Pr _ (lpos_spec ha).1).1
        exact nmf_mono (by omega)
      have hRpos : ∀ a, 1 ≤ nmf T n P (r (lpos T n a)) := fun a => nmf_pos _
      have hrec := ih { e with txt := .ptr (n + fs - lmsN T n), cs := width S } (fs + n - lmsN T n * 2) (lmsN T n) name s2
        (fun a => nmf T n P (r (lpos T n a)) - 1) (by omega) (by omega) (by omega)
        (fun a ha => by have := hRle a ha; have := hRpos a; omega)
        (by
          refine ⟨rfl, by omega, by have := h2.sz; have := h2.hl; omega, fun a ha => ?_⟩
          rw [h2.a _ (by omega), hR a ha]
          have := hRpos a
          simp only
          omega)
        (by have := h2.sz; have := h2.hl; omega)
      exact CostLe.bind (hrec.mono (by omega)) (fun v => cost_afterRec _ _ _ _ _)
    · rw [if_neg hlt]; exact CostLe.pure _ _

end

end Flbwt
