import Verif.TimeFrontModel
import Verif.TimeSais
import Verif.TimeInduce
import Verif.FrontMain

/-!
# Bounds for the number of iterations of `bwt_string`
-/

namespace Flbwt

open TM SaStore LawfulSaStore
open HashTable (Tab Has allEnts substr bodyLen nb hashL ok_bind mem_allEnts)

namespace HashTable

theorem cost_hashFunction (htsize : Nat) (T : Mem Nat) (m p : Nat) : CostLe (hashFunctionT htsize T m p) m := by
  unfold hashFunctionT
  exact (CostLe.bind (b := 0) (CostLe.loopUp (b := 0) fun i s => CostLe.lift _ _) (fun _ => CostLe.lift _ _)).mono (by omega)

theorem cost_compareLoop (T : Mem Nat) (p : Nat) (buf : Mem Nat) (base m : Nat) :
    CostLe (compareLoopT T p buf base m) (m + 1) :=
  (CostLe.whileFuel (b := 0) fun _ => CostLe.lift _ _).mono (by omega)

theorem cost_insertStep (NB : Nat) (buf : Mem Nat) (T : Mem Nat) (m p : Nat) (x : Nat × Option Nat × Nat) :
    CostLe (insertStepT NB buf T m p x) (m + 1) := by
  obtain ⟨q, r, coll⟩ := x
  unfold insertStepT
  refine CostLe.ite ?_ (CostLe.pure _ _)
  refine (CostLe.bind (a := 0) (b := m + 1) (CostLe.lift _ _) fun l => ?_).mono (by omega)
  refine CostLe.ite (CostLe.pure _ _) (CostLe.ite ?_ (CostLe.ite ?_ ?_))
  · exact (CostLe.bind (a := 0) (b := 0) (CostLe.lift _ _) fun _ => CostLe.pure _ _).mono (by omega)
  · exact (CostLe.bind (a := 0) (b := 0) (CostLe.lift _ _) fun _ => CostLe.pure _ _).mono (by omega)
  · refine (CostLe.bind (a := 0) (b := m + 1) (CostLe.lift _ _) fun _ => ?_).mono (by omega)
    refine (CostLe.bind (b := 0) (cost_compareLoop _ _ _ _ _) fun _ => ?_).mono (by omega)
    refine CostLe.ite (CostLe.pure _ _) ?_
    exact (CostLe.bind (a := 0) (b := 0) (CostLe.lift _ _) fun _ => CostLe.pure _ _).mono (by omega)

theorem cost_findStep (NB : Nat) (buf : Mem Nat) (T : Mem Nat) (m p q : Nat) :
    CostLe (findStepT NB buf T m p q) (m + 1) := by
  unfold findStepT
  refine CostLe.ite ?_ (CostLe.pure _ _)
  refine (CostLe.bind (a := 0) (b := m + 1) (CostLe.lift _ _) fun l => ?_).mono (by omega)
  refine CostLe.ite (CostLe.pure _ _) (CostLe.ite ?_ (CostLe.ite ?_ ?_))
  · exact (CostLe.bind (a := 0) (b := 0) (CostLe.lift _ _) fun _ => CostLe.pure _ _).mono (by omega)
  · exact (CostLe.bind (a := 0) (b := 0) (CostLe.lift _ _) fun _ => CostLe.pure _ _).mono (by omega)
  · refine (CostLe.bind (a := 0) (b := m + 1) (CostLe.lift _ _) fun _ => ?_).mono (by omega)
    refine (CostLe.bind (b := 0) (cost_compareLoop _ _ _ _ _) fun _ => ?_).mono (by omega)
    refine CostLe.ite ?_ ?_
    · exact (CostLe.bind (a := 0) (b := 0) (CostLe.lift _ _) fun _ => CostLe.pure _ _).mono (by omega)
    · exact (CostLe.bind (a := 0) (b := 0) (CostLe.lift _ _) fun _ => CostLe.pure _ _).mono (by omega)

theorem cost_writeRecord (NB : Nat) (buf : Mem Nat) (T : Mem Nat) (m p lb r : Nat) :
    CostLe (writeRecordT NB buf T m p lb r) (m + 12) := by
  unfold writeRecordT
  refine CostLe.mono (a := 0 + (0 + (0 + (m * (0 + 1) + 12 * (0 + 1))))) ?_ (by omega)
  refine CostLe.bind (CostLe.lift _ _) fun _ => ?_
  refine CostLe.bind (CostLe.lift _ _) fun _ => ?_
  refine CostLe.bind (CostLe.lift _ _) fun _ => ?_
  exact CostLe.bind (CostLe.loopUp fun _ _ => CostLe.lift _ _) fun _ => CostLe.loopUp fun _ _ => CostLe.lift _ _

theorem cost_insertTail (junk : Fresh) (ht : HashTable) (T : Mem Nat) (m p h : Nat) (e : ScanEnd) :
    CostLe (insertTailT junk ht T m p h e) (m + 12) := by
  cases e with
  | dup c => exact CostLe.pure _ _
  | free q r c =>
    unfold insertTailT
    refine CostLe.mono (a := 0 + (0 + ((m + 12) + (0 + (0 + 0))))) ?_ (by omega)
    refine CostLe.bind (CostLe.lift _ _) fun _ => ?_
    refine CostLe.bind (CostLe.lift _ _) fun _ => ?_
    refine CostLe.bind (cost_writeRecord _ _ _ _ _ _ _) fun _ => ?_
    refine CostLe.bind (CostLe.lift _ _) fun _ => ?_
    exact CostLe.bind (CostLe.lift _ _) fun _ => CostLe.pure _ _

variable {ht : HashTable} {own : Nat → Tag} {ents : Nat → List (Nat × List Nat)} {E : Nat → Nat}

theorem ents_le (k h : Nat) (hh : h < k) : (ents h).length ≤ (allEnts ents k).length := by
  induction k with
  | zero => omega
  | succ k ih =>
    rw [allEnts_succ, List.length_append]
    by_cases e : h = k
    · subst e; omega
    · have := ih (by omega); omega

theorem cost_insertString (t : Tab ht own ents E) (ws : Nat) (junk : Fresh) (T : Mem Nat) (m p : Nat) (hT : p + m ≤ T.size) :
    CostLe (insertStringT ws junk ht T m p) (2 * m + 12 + ws * ((2 * (allEnts ents ht.htsize).length + 1) * (m + 2))) := by
  have hhl := hashL_lt t.hts (substr T p m)
  unfold insertStringT
  refine CostLe.mono (a := m + (0 + (ws * ((2 * (allEnts ents ht.htsize).length + 1) * (m + 2)) + (m + 12)))) ?_ (by omega)
  refine CostLe.bindV (P := fun h => h = hashL ht.htsize (substr T p m)) (by
    rw [erase_hashFunction, hashFunction_eq _ _ _ _ t.hts hT]; rfl) (cost_hashFunction _ _ _ _) ?_
  rintro h rfl
  refine CostLe.bindV (P := fun q => q = ht.head.data (hashL ht.htsize (substr T p m))) (by
    rw [erase_lift, Mem.rd_ok _ (by rw [t.headsz]; exact hhl)]; rfl) (CostLe.lift _ _) ?_
  rintro q rfl
  refine CostLe.bind ?_ (fun e => cost_insertTail _ _ _ _ _ _ _)
  refine CostLe.scale ?_
  have hle := ents_le (ents := ents) ht.htsize _ hhl
  refine CostLe.mono (a := (2 * (ents (hashL ht.htsize (substr T p m))).length + 1) * (m + 1 + 1)) ?_
    (Nat.mul_le_mul (by omega) (by omega))
  refine CostLe.whileF (fun x => cost_insertStep _ _ _ _ _ x) ?_
  simp only [erase_insertStep]
  by_cases h0 : ht.head.data (hashL ht.htsize (substr T p m)) = 0
  · rw [h0]
    simp only [whileM, insertStep, if_neg (show ¬ (0 : Nat) ≠ 0 by omega), ok_bind, Tot_ok]
  · exact (scan_spec hT (fun i hi => t.owned hi) t.small64 (t.chain _ hhl h0) _ none ht.collisions (Or.inr (Or.inl (Nat.le_refl _)))).mono
      (fun _ _ => trivial)

theorem cost_findName (t : Tab ht own ents E) (ws : Nat) (T : Mem Nat) (m p : Nat) (hT : p + m ≤ T.size) :
    CostLe (findNameT ws ht T m p) (m + ws * ((2 * (allEnts ents ht.htsize).length + 1) * (m + 2))) := by
  have hhl := hashL_lt t.hts (substr T p m)
  unfold findNameT
  refine CostLe.mono (a := m + (0 + (ws * ((2 * (allEnts ents ht.htsize).length + 1) * (m + 2)) + 0))) ?_ (by omega)
  refine CostLe.bindV (P := fun h => h = hashL ht.htsize (substr T p m)) (by
    rw [erase_hashFunction, hashFunction_eq _ _ _ _ t.hts hT]; rfl) (cost_hashFunction _ _ _ _) ?_
  rintro h rfl
  refine CostLe.bindV (P := fun q => q = ht.head.data (hashL ht.htsize (substr T p m))) (by
    rw [erase_lift, Mem.rd_ok _ (by rw [t.headsz]; exact hhl)]; rfl) (CostLe.lift _ _) ?_
  rintro q rfl
  refine CostLe.bind ?_ (fun e => CostLe.lift _ _)
  refine CostLe.scale ?_
  have hle := ents_le (ents := ents) ht.htsize _ hhl
  refine CostLe.mono (a := (2 * (ents (hashL ht.htsize (substr T p m))).length + 1) * (m + 1 + 1)) ?_
    (Nat.mul_le_mul (by omega) (by omega))
  refine CostLe.whileF (fun x => cost_findStep _ _ _ _ _ x) ?_
  simp only [erase_findStep]
  by_cases h0 : ht.head.data (hashL ht.htsize (substr T p m)) = 0
  · rw [h0]
    simp only [whileM, findStep, if_neg (show ¬ (0 : Nat) ≠ 0 by omega), ok_bind, Tot_ok]
  · obtain ⟨h1, h2⟩ := find_scan_spec hT (fun i hi => t.owned hi) t.small64 (t.chain _ hhl h0)
      (2 * (ents (hashL ht.htsize (substr T p m))).length + 1) (Or.inr (Or.inl (Nat.le_refl _)))
    by_cases hin : substr T p m ∈ (ents (hashL ht.htsize (substr T p m))).map Prod.snd
    · obtain ⟨x, hx, hxs⟩ := List.mem_map.1 hin
      have hx' : (x.1, substr T p m) ∈ ents (hashL ht.htsize (substr T p m)) := by rw [← hxs] at hx ⊢; exact hx
      rw [h2 x.1 hx' (t.nodup _ hhl)]
      exact Tot.bind (t.stored hhl hx').getName_tot (fun _ _ => trivial)
    · rw [h1 hin]; trivial

theorem sumUp_allEnts (k : Nat) : sumUp (fun h => 2 * (ents h).length + 1) 0 k = 2 * (allEnts ents k).length + k := by
  induction k with
  | zero => simp [sumUp, allEnts]
  | succ k ih => rw [sumUp_succ, ih, Nat.zero_add, allEnts_succ, List.length_append]; omega

theorem cost_collect (t : Tab ht own ents E) (s : Mem Nat) (j : Nat)
    (hj : j + (allEnts ents ht.htsize).length ≤ s.size) (ht' : HashTable) (h1 : ht'.htsize = ht.htsize)
    (h2 : ht'.head = ht.head) (h3 : ht'.nameBytes = ht.nameBytes) (h4 : ht.buf.size ≤ ht'.buf.size)
    (h5 : ∀ i, i < ht.buf.size → ht'.buf.data i = ht.buf.data i) :
    CostLe (collectT ht' s j) (2 * ht.htsize + 2 * (allEnts ents ht.htsize).length) := by
  unfold collectT
  rw [h1, h2, h3]
  refine CostLe.mono (a := ht.htsize + sumUp (fun h => 2 * (ents h).length + 1) 0 ht.htsize) ?_
    (by rw [sumUp_allEnts]; omega)
  have hmono : ∀ k, k ≤ ht.htsize → (allEnts ents k).length ≤ (allEnts ents ht.htsize).length := by
    intro k hk
    obtain ⟨d, hd⟩ : ∃ d, ht.htsize = k + d := ⟨ht.htsize - k, by omega⟩
    rw [hd]
    clear hd hk
    induction d with
    | zero => exact Nat.le_refl _
    | succ d ih => rw [show k + (d + 1) = k + d + 1 by omega, allEnts_succ, List.length_append]; omega
  refine CostLe.loopUpI (fun k (st : Mem Nat × Nat) => st.1.size = s.size ∧ st.2 = j + (allEnts ents k).length) _ _ _ _ _
    ⟨rfl, by simp [allEnts]⟩ ?_
  rintro k ⟨s1, j1⟩ _ k2 ⟨a, b⟩
  simp only at a b
  subst b
  have hk : k < ht.htsize := by omega
  have hm := hmono (k + 1) (by omega)
  rw [allEnts_succ, List.length_append] at hm
  simp only [erase_bind, erase_lift, erase_whileT]
  by_cases h0 : ht.head.data k = 0
  · have hw : ∀ f, whileM (f + 1) (0, s1, j + (allEnts ents k).length) (collectStep ht.nameBytes ht'.buf) =
        .ok (s1, j + (allEnts ents k).length) := by
      intro f
      simp only [whileM, collectStep, if_neg (show ¬ (0 : Nat) ≠ 0 by omega), ok_bind]
    constructor
    · rw [Mem.rd_ok _ (by rw [t.headsz]; exact hk), ok_bind, h0, hw, Tot_ok]
      rw [allEnts_succ, (t.empty k hk h0).1]
      simpa using a
    · refine CostLe.mono (a := 0 + 1 * (0 + 1)) ?_ (by omega)
      refine CostLe.bindV (P := fun q => q = 0) (by
        rw [erase_lift, Mem.rd_ok _ (by rw [t.headsz]; exact hk), h0]; rfl) (CostLe.lift _ _) ?_
      rintro q rfl
      refine CostLe.whileF (fun x => CostLe.lift _ _) ?_
      simp only [erase_lift, hw 0]; trivial
  · have hc := (t.chain k hk h0).frame (buf' := ht'.buf) (P' := fun i => own i = .str k) (PN' := fun q i => own i = .name q)
      (fun i hi => ⟨hi, h5 i (t.owned hi)⟩) (fun _ _ h => h)
    have hsc := fun fuel hf => collect_scan (fun i hi => lt_of_lt_of_le (t.owned hi) h4) (fun i hi => lt_trans (t.owned hi) t.small64) hc fuel s1
      (j + (allEnts ents k).length) hf (by rw [a]; omega)
    constructor
    · rw [Mem.rd_ok _ (by rw [t.headsz]; exact hk), ok_bind]
      refine (hsc (ht'.buf.size + 2) (Or.inl (by omega))).mono ?_
      rintro ⟨s2, j2⟩ ⟨c, d⟩
      refine ⟨by rw [c.1]; exact a, ?_⟩
      rw [allEnts_succ, List.length_append]
      simp only at d ⊢; omega
    · refine CostLe.mono (a := 0 + (2 * (ents k).length + 1) * (0 + 1)) ?_ (by omega)
      refine CostLe.bindV (P := fun q => q = ht.head.data k) (by
        rw [erase_lift, Mem.rd_ok _ (by rw [t.headsz]; exact hk)]; rfl) (CostLe.lift _ _) ?_
      rintro q rfl
      refine CostLe.whileF (fun x => CostLe.lift _ _) ?_
      simp only [erase_lift]
      exact (hsc _ (Or.inr (Or.inl (Nat.le_refl _)))).mono (fun _ _ => trivial)

end HashTable

/-! ## The scans of the text -/

/-- the length of the S* substring that starts at `i + 1`, without its last character -/
noncomputable def starLen (T : Nat → Nat) (n i : Nat) : Nat :=
  open Classical in if isLMS T n (i + 1) then nx T n (i + 1) - (i + 1) else 0

theorem starLen_lms {T : Nat → Nat} {n i : Nat} (h : isLMS T n (i + 1)) :
    starLen T n i = nx T n (i + 1) - (i + 1) ∧ 2 ≤ starLen T n i ∧ i + 1 + starLen T n i ≤ n := by
  obtain ⟨h1, h2, h3, h4⟩ := nx_spec h
  have e : starLen T n i = nx T n (i + 1) - (i + 1) := by unfold starLen; rw [if_pos h]
  have : 2 ≤ nx T n (i + 1) - (i + 1) := by
    omega
  exact ⟨e, by omega, by omega⟩

theorem starLen_sum (T : Nat → Nat) (n m : Nat) (hm : m ≤ n) : sumUp (starLen T n) 0 m ≤ n := by
  refine disjoint_sum (fun i => i + 1) (starLen T n) n m ?_ ?_
  · intro i hi
    by_cases h : isLMS T n (i + 1)
    · exact (starLen_lms h).2.2
    · have : starLen T n i = 0 := by unfold starLen; rw [if_neg h]
      omega
  · intro i j hi hj hne h1 h2
    have l1 : isLMS T n (i + 1) := by
      by_contra h; exact h1 (by unfold starLen; rw [if_neg h])
    have l2 : isLMS T n (j + 1) := by
      by_contra h; exact h2 (by unfold starLen; rw [if_neg h])
    have key : ∀ a b, isLMS T n (a + 1) → isLMS T n (b + 1) → a < b → a + 1 + starLen T n a ≤ b + 1 := by
      intro a b ha hb hab
      rw [(starLen_lms ha).1]
      obtain ⟨g1, g2, g3, g4⟩ := nx_spec ha
      by_contra hc
      exact g4 (b + 1) (by omega) (by omega) hb
    rcases Nat.lt_or_ge i j with h | h
    · exact Or.inl (key i j l1 l2 h)
    · exact Or.inr (key j i l2 l1 (by omega))

theorem sumUp_mul (K : Nat) (w : Nat → Nat) (lo m : Nat) : sumUp (fun i => K * w i) lo m = K * sumUp w lo m := by
  induction m generalizing lo with
  | zero => rfl
  | succ m ih => rw [sumUp, sumUp, ih, Nat.mul_add]

/-- the cost of handling one S* substring, per character -/
abbrev perChar (ws n : Nat) : Nat := 9 + ws * (3 * n)

/-- the cost of searching for a string of `m = f + 1` characters and storing it, with at most `u ≤ n / 2` strings -/
theorem star_cost {ws n u f c : Nat} (hu : 2 * u + 1 ≤ n) (hf : 2 ≤ f) (hc : c ≤ 2 * (f + 1) + 12) :
    c + ws * ((2 * u + 1) * (f + 1 + 2)) ≤ perChar ws n * f := by
  have h1 : (2 * u + 1) * (f + 1 + 2) ≤ n * (3 * f) := Nat.mul_le_mul hu (by omega)
  have h2 := Nat.mul_le_mul_left ws h1
  have h3 : perChar ws n * f = 9 * f + ws * (n * (3 * f)) := by unfold perChar; ring
  rw [h3]; omega

theorem HtOK.uniq {T : Nat → Nat} {n u : Nat} {ht : HashTable} {P : Nat → Prop} (hn : 1 ≤ n) (h : HtOK T n ht P u) :
    ∃ own ents E, Tab ht own ents E ∧ 2 * (allEnts ents ht.htsize).length + 1 ≤ n := by
  obtain ⟨own, ents, E, t, hset, hu, _⟩ := h.tab
  refine ⟨own, ents, E, t, ?_⟩
  have hsub : ∀ x ∈ (allEnts ents ht.htsize).map Prod.snd, x ∈ ((List.range (lmsN T n)).map fun a => wstr T n (lpos T n a)) := by
    intro x hx
    rw [← t.has_iff, hset] at hx
    obtain ⟨p, _, hp, rfl⟩ := hx
    exact List.mem_map.2 ⟨tix T n p, List.mem_range.2 (tix_lt hp), by rw [lpos_tix hp]⟩
  have h1 := (List.Nodup.subperm t.nodup_all hsub).length_le
  have h2 := lmsN_le (T := T) (n := n) hn
  simp only [List.length_map, List.length_range] at h1
  omega

theorem cost_exStep {T : Mem Nat} {n : Nat} (I : Input T n) (ws : Nat) (junk : Fresh) {i : Nat}
    (hi : i + 1 < n) {s : ExSt} (g : ExInv T n (i + 1) s) :
    CostLe (exStepT ws junk T i s) (perChar ws n * starLen T.data n i) := by
  have hsz := I.size
  unfold exStepT
  refine CostLe.mono (a := 0 + (0 + (0 + perChar ws n * starLen T.data n i))) ?_ (by omega)
  refine CostLe.bindV (P := fun a => a = T.data i) (by rw [erase_lift, Mem.rd_ok _ (by omega)]; rfl) (CostLe.lift _ _) ?_
  rintro a rfl
  refine CostLe.bindV (P := fun a => a = T.data (i + 1)) (by rw [erase_lift, Mem.rd_ok _ (by omega)]; rfl) (CostLe.lift _ _) ?_
  rintro b rfl
  refine CostLe.bind (CostLe.lift _ _) fun M' => ?_
  refine CostLe.ite (CostLe.pure _ _) ?_
  by_cases hd : T.data (i + 1) < T.data i
  · rw [if_pos hd]
    refine CostLe.mono (a := perChar ws n * starLen T.data n i + (0 + 0)) ?_ (by omega)
    refine CostLe.bind ?_ fun s' => CostLe.bind (CostLe.lift _ _) fun _ => CostLe.pure _ _
    unfold exMaybeT
    by_cases hp : s.prev = TYPE_S
    · rw [if_pos hp]
      have hS : isS T.data n (i + 1) = true := by
        by_contra hc
        have := g.prev
        rw [if_neg hc, hp] at this
        exact absurd this (by decide)
      have hSi : isS T.data n i = false := (L_iff (by omega)).2 (Or.inr ⟨hi, Or.inl hd⟩)
      have hl : isLMS T.data n (i + 1) := ⟨by omega, hi, hS, by simpa using hSi⟩
      have hnx := g.lms hl
      have hq : subU64 s.q (i + 1) = starLen T.data n i := by
        have := nx_spec hl
        rw [g.qp, ← hnx] at *
        rw [subU64_eq (by omega), (starLen_lms hl).1]
      have hf := (starLen_lms hl).2
      obtain ⟨own, ents, E, t, hu⟩ := g.ht.uniq (by omega)
      unfold exFoundT
      have hq1 : addU64 (starLen T.data n i) 1 = starLen T.data n i + 1 :=
        addU64_eq (by have := nx_spec hl; have := (starLen_lms hl).1; have := I.nlt; omega)
      simp only [hq, hq1]
      refine CostLe.mono ?_ (star_cost (ws := ws) hu hf.1 (Nat.le_refl _))
      refine CostLe.mono (a := 0 + (0 + ((2 * (starLen T.data n i + 1) + 12 +
        ws * ((2 * (allEnts ents s.ht.htsize).length + 1) * (starLen T.data n i + 1 + 2))) + 0))) ?_ (by omega)
      refine CostLe.bind (CostLe.lift _ _) fun _ => ?_
      refine CostLe.bind (CostLe.lift _ _) fun _ => ?_
      exact CostLe.bind (HashTable.cost_insertString t ws junk T _ _ (by omega)) fun _ => CostLe.pure _ _
    · rw [if_neg hp]; exact CostLe.pure _ _
  · rw [if_neg hd]
    refine CostLe.ite ?_ (CostLe.pure _ _)
    exact (CostLe.bind (a := 0) (b := 0) (CostLe.lift _ _) fun _ => CostLe.pure _ _).mono (by omega)

theorem CostLe.loopDownW {σ : Type} (Inv : Nat → σ → Prop) {K : Nat} {w : Nat → Nat} {b hi : Nat} {s : σ} {f : Nat → σ → TM σ}
    (h0 : Inv hi s) (hw : sumUp w 0 hi ≤ b)
    (hs : ∀ i s, i < hi → Inv (i + 1) s → Tot (erase (f i s)) (Inv i) ∧ CostLe (f i s) (K * w i)) :
    CostLe (loopDownT hi s f) (hi + K * b) :=
  (CostLe.loopDownI Inv (fun i => K * w i) hi s f h0 hs).mono (by
    rw [sumUp_mul]; exact Nat.add_le_add_left (Nat.mul_le_mul_left _ hw) _)

theorem cost_shStep {T : Mem Nat} {n : Nat} (I : Input T n) {ct ct' : Container} {ht : HashTable} {s0 : Mem Nat} {str : Nat → List Nat}
    (H : SortedOK T n ct ct' ht s0 str) {R : Nat → Nat} {bits u : Nat} (ws : Nat) (sj : BitVec 64) {i : Nat} (hi : i + 1 < n)
    {s : ShSt} (g : ShInv T n u bits R (i + 1) s) :
    CostLe (shStepT ws sj ht T i s) (perChar ws n * starLen T.data n i) := by
  have hsz := I.size
  unfold shStepT
  refine CostLe.mono (a := 0 + (0 + perChar ws n * starLen T.data n i)) ?_ (by omega)
  refine CostLe.bindV (P := fun a => a = T.data i) (by rw [erase_lift, Mem.rd_ok _ (by omega)]; rfl) (CostLe.lift _ _) ?_
  rintro a rfl
  refine CostLe.bindV (P := fun a => a = T.data (i + 1)) (by rw [erase_lift, Mem.rd_ok _ (by omega)]; rfl) (CostLe.lift _ _) ?_
  rintro b rfl
  refine CostLe.ite (CostLe.pure _ _) ?_
  by_cases hd : T.data (i + 1) < T.data i
  · rw [if_pos hd]
    refine CostLe.mono (a := perChar ws n * starLen T.data n i + 0) ?_ (by omega)
    refine CostLe.bind ?_ fun s' => CostLe.pure _ _
    unfold shMaybeT
    by_cases hp : s.prev = TYPE_S
    · rw [if_pos hp]
      have hS : isS T.data n (i + 1) = true := by
        by_contra hc
        have := g.prev
        rw [if_neg hc, hp] at this
        exact absurd this (by decide)
      have hSi : isS T.data n i = false := (L_iff (by omega)).2 (Or.inr ⟨hi, Or.inl hd⟩)
      have hl : isLMS T.data n (i + 1) := ⟨by omega, hi, hS, by simpa using hSi⟩
      have hnx : nx T.data n (i + 1) = s.q := nx_eq hl g.lo g.hi g.fst g.no
      have hq : subU64 s.q (i + 1) = starLen T.data n i := by
        have := nx_spec hl
        rw [subU64_eq (by omega), (starLen_lms hl).1, hnx]
      have hf := (starLen_lms hl).2
      obtain ⟨own, ents, E, t, hu⟩ := H.tab
      have hln := lmsN_le (T := T.data) (n := n) (by omega)
      have hq1 : addU64 (starLen T.data n i) 1 = starLen T.data n i + 1 :=
        addU64_eq (by have := nx_spec hl; have := (starLen_lms hl).1; have := I.nlt; omega)
      simp only [hq, hq1]
      refine CostLe.mono ?_ (star_cost (ws := ws) (show 2 * (allEnts ents ht.htsize).length + 1 ≤ n by omega) hf.1
        (show starLen T.data n i + 1 ≤ _ by omega))
      refine CostLe.mono (a := (starLen T.data n i + 1 +
        ws * ((2 * (allEnts ents ht.htsize).length + 1) * (starLen T.data n i + 1 + 2))) + (0 + 0)) ?_ (by omega)
      refine CostLe.bind (HashTable.cost_findName t ws T _ _ (by omega)) fun _ => ?_
      exact CostLe.bind (CostLe.lift _ _) fun _ => CostLe.pure _ _
    · rw [if_neg hp]; exact CostLe.pure _ _
  · rw [if_neg hd]; exact CostLe.pure _ _

/-! ## The stages -/

theorem cost_extractLMS {T : Mem Nat} {n : Nat} (I : Input T n) {junk : Fresh} (hL : LmsLenOK junk T.data n) (ws : Nat) :
    CostLe (extractLMST ws junk T n) (135812 + n + perChar ws n * n) := by
  have hn3 := I.n3
  obtain ⟨ht0, M1, M2, NL1, C1, e0, e1, e2, e3, e4, e5, h0⟩ := extract_start I
  unfold extractLMST
  refine CostLe.mono (a := (0 + 258) + ((0 + (67777 + 67777)) + (0 + (0 + (0 + (0 + (0 + ((n - 1 + perChar ws n * n) + 0)))))))) ?_ (by omega)
  refine CostLe.bindV (P := fun ct => ct = Container.new n) (by rw [erase_charge]; rfl) (CostLe.charge (CostLe.pure _ _)) ?_
  rintro ct rfl
  rw [if_neg (by omega)]
  refine CostLe.bindV (P := fun x => x = ht0) (by rw [erase_charge, erase_lift, e0]; rfl) (CostLe.charge (CostLe.lift _ _)) ?_
  rintro x rfl
  refine CostLe.bindV (P := fun x => x = M1) (by rw [erase_lift, e1]; rfl) (CostLe.lift _ _) ?_
  rintro x rfl
  refine CostLe.bindV (P := fun x => x = T.data (n - 1)) (by rw [erase_lift, e2]; rfl) (CostLe.lift _ _) ?_
  rintro x rfl
  refine CostLe.bindV (P := fun x => x = M2) (by rw [erase_lift, e3]; rfl) (CostLe.lift _ _) ?_
  rintro x rfl
  refine CostLe.bindV (P := fun x => x = NL1) (by rw [erase_lift, e4]; rfl) (CostLe.lift _ _) ?_
  rintro x rfl
  refine CostLe.bindV (P := fun x => x = C1) (by rw [erase_lift, e5]; rfl) (CostLe.lift _ _) ?_
  rintro x rfl
  refine CostLe.bind ?_ fun _ => CostLe.pure _ _
  refine CostLe.loopDownW (ExInv T n) h0 (starLen_sum T.data n _ (by omega)) ?_
  intro i s hi g
  exact ⟨by rw [erase_exStep]; exact exStep_spec I hL (by omega) g, cost_exStep I ws junk (by omega) g⟩

theorem cost_createShortened {T : Mem Nat} {n : Nat} (I : Input T n) {ct ct' : Container} {ht : HashTable} {s0 : Mem Nat}
    {str : Nat → List Nat} (H : SortedOK T n ct ct' ht s0 str) (hnum : ct.numSubs = lmsN T.data n) (hul : ct.numUnique ≤ lmsN T.data n)
    {R : Nat → Nat} (hR : IsName T.data n ct.numUnique str R) (ws : Nat) (tj : Nat → BitVec 64) (sj : BitVec 64) :
    CostLe (createShortenedT ws tj sj T n ct') (n + perChar ws n * n) := by
  have hn3 := I.n3
  obtain ⟨bits, T1, e1, e2, b4, _, h0⟩ := short_start I H hnum hul R tj sj
  have hln := lmsN_le (T := T.data) (n := n) (by omega)
  have hn := I.nlt
  unfold createShortenedT
  refine CostLe.mono (a := 0 + (0 + (0 + ((n - 1 + perChar ws n * n) + 0)))) ?_ (by omega)
  refine CostLe.bindV (P := fun x => x = ht) (by rw [erase_lift]; unfold tableOf; rw [H.htab]; rfl) (CostLe.lift _ _) ?_
  rintro x rfl
  refine CostLe.bindV (P := fun x => bits = x) (by rw [erase_lift, e1]; rfl) (CostLe.lift _ _) ?_
  rintro x rfl
  refine CostLe.bindV (P := fun x => x = T1) (by rw [erase_lift, e2]; rfl) (CostLe.lift _ _) ?_
  rintro x rfl
  refine CostLe.bind ?_ fun _ => CostLe.lift _ _
  refine CostLe.loopDownW (ShInv T n ct.numUnique bits R) h0 (starLen_sum T.data n _ (by omega)) ?_
  intro i s hi g
  exact ⟨by rw [erase_shStep]; exact shStep_spec I H hR b4 sj (by omega) (by omega) g, cost_shStep I H ws sj (by omega) g⟩

theorem cost_sortHead (T : Mem Nat) (ct : Container) (pos : Nat) (ht : HashTable) (s : Mem Nat) :
    CostLe (sortHeadT T ct pos ht s) (ct.headEnd + ct.numUnique + 2) := by
  unfold sortHeadT writeHeadT minMaxT
  refine CostLe.mono (a := 0 + ((0 + (0 + (0 + (0 + (0 + ((ct.headEnd + 1) * (0 + 1) + 0)))))) + (0 + (0 + ((0 + (ct.numUnique + 1) * (0 + 1)) + (0 + (0 + (0 + 0)))))))) ?_ (by omega)
  refine CostLe.bind (CostLe.lift _ _) fun _ => ?_
  refine CostLe.bind ?_ fun _ => ?_
  · refine CostLe.bind (CostLe.lift _ _) fun _ => ?_
    refine CostLe.bind (CostLe.lift _ _) fun _ => ?_
    refine CostLe.bind (CostLe.lift _ _) fun _ => ?_
    refine CostLe.bind (CostLe.lift _ _) fun _ => ?_
    refine CostLe.bind (CostLe.lift _ _) fun _ => ?_
    exact CostLe.bind (CostLe.loopUp fun _ _ => CostLe.lift _ _) fun _ => CostLe.pure _ _
  · refine CostLe.bind (CostLe.lift _ _) fun _ => ?_
    refine CostLe.bind (CostLe.lift _ _) fun _ => ?_
    refine CostLe.bind (CostLe.bind (CostLe.lift _ _) fun _ => CostLe.loopUp fun _ _ => CostLe.lift _ _) fun _ => ?_
    refine CostLe.bind (CostLe.lift _ _) fun _ => ?_
    refine CostLe.bind (CostLe.lift _ _) fun _ => ?_
    exact CostLe.bind (CostLe.lift _ _) fun _ => CostLe.pure _ _

theorem cost_sortNames {T : Mem Nat} {n : Nat} (I : Input T n) (junk : Fresh) {sorter : Sorter}
    (pj : Nat → Nat) {ct : Container} {ht : HashTable} (X : Extracted T.data n ct ht) :
    CostLe (sortNamesT sorter pj junk ct ht) (135554 + 3 * ct.numUnique) := by
  obtain ⟨own, ents, E, t, hset0, hu, _⟩ := X.hok.tab
  have hts := X.hok.cap.1
  unfold sortNamesT
  refine CostLe.mono (a := 0 + (0 + ((2 * 67777 + 2 * ct.numUnique) + (0 + (0 + (0 + (ct.numUnique + 0))))))) ?_ (by omega)
  refine CostLe.bind (CostLe.lift _ _) fun ll => ?_
  refine CostLe.bindE (CostLe.lift _ _) fun buf hb => ?_
  rw [erase_lift] at hb
  unfold reallocBytes at hb
  split at hb
  case isFalse => cases hb
  cases hb
  refine CostLe.bindV (P := fun r => r.2 = 1 + ct.numUnique) ?_ ?_ ?_
  · rw [HashTable.erase_collect]
    have := HashTable.collect_tot t ⟨ct.numUnique + 2, pj⟩ 1 (by rw [← hu]; simp only; omega) { ht with
      buf := ⟨ht.bufsize + (1 + 1 + ll + (ct.headEnd + 1) + ht.nameBytes + (1 + 1 + 1 + 1 + ht.nameBytes)),
        fun i => if i < ht.buf.size then ht.buf.data i else junk i % 256⟩,
      bufsize := ht.bufsize + (1 + 1 + ll + (ct.headEnd + 1) + ht.nameBytes + (1 + 1 + 1 + 1 + ht.nameBytes)) } rfl rfl rfl
      (by simp only; rw [t.bufsz]; omega) (by intro i hi; simp only; rw [if_pos hi])
    refine this.mono ?_
    rintro r ⟨_, h⟩; rw [h, ← hu]
  · have := HashTable.cost_collect t ⟨ct.numUnique + 2, pj⟩ 1 (by rw [← hu]; simp only; omega) { ht with
      buf := ⟨ht.bufsize + (1 + 1 + ll + (ct.headEnd + 1) + ht.nameBytes + (1 + 1 + 1 + 1 + ht.nameBytes)),
        fun i => if i < ht.buf.size then ht.buf.data i else junk i % 256⟩,
      bufsize := ht.bufsize + (1 + 1 + ll + (ct.headEnd + 1) + ht.nameBytes + (1 + 1 + 1 + 1 + ht.nameBytes)) } rfl rfl rfl
      (by simp only; rw [t.bufsz]; omega) (by intro i hi; simp only; rw [if_pos hi])
    exact this.mono (by rw [← hu, hts])
  · rintro r hr
    have hm : subU64 r.2 1 = ct.numUnique := by rw [subU64_eq (by omega)]; omega
    simp only [hm]
    refine CostLe.bind (CostLe.lift _ _) fun _ => ?_
    refine CostLe.bind (CostLe.lift _ _) fun _ => ?_
    refine CostLe.bind (CostLe.lift _ _) fun _ => ?_
    refine CostLe.bind ?_ fun _ => CostLe.pure _ _
    exact (CostLe.loopUp (b := 0) fun _ _ => CostLe.lift _ _).mono (by omega)

theorem cost_sortLMS {T : Mem Nat} {n : Nat} (I : Input T n) (junk : Fresh) {sorter : Sorter}
    (pj : Nat → Nat) {ct : Container} {ht : HashTable} (X : Extracted T.data n ct ht) :
    CostLe (sortLMST sorter pj junk T ct) (135556 + 4 * ct.numUnique + ct.headEnd) := by
  unfold sortLMST
  refine CostLe.mono (a := 0 + ((135554 + 3 * ct.numUnique) + (ct.headEnd + ct.numUnique + 2))) ?_ (by omega)
  refine CostLe.bindV (P := fun x => ht = x) (by rw [erase_lift]; unfold tableOf; rw [X.htab]; rfl) (CostLe.lift _ _) ?_
  rintro x rfl
  exact CostLe.bind (cost_sortNames I junk pj X) fun r => cost_sortHead _ _ _ _ _

section
variable {T : Mem Nat} {n : Nat} {ct : Container} {ht : HashTable} {s : Mem Nat} {str : Nat → List Nat} {R : Nat → Nat} {T1 : PackedArray}

/-- a branch up to the inducing step -/
def prepT (S : Type) [SaStore S] (w : World) (s : Mem Nat) (T1 : PackedArray) (ht : HashTable) (ct : Container) : TM S := do
  let sa : S := fresh (ct.numSubs + 2) w.aj
  let st ← saisT w.cj 64 { txt := .packed T1.arr, cs := T1.bits, sj := w.sj } 0 (ct.numSubs + 1) (ct.numUnique + 2)
    (⟨sa, fresh 0 (fun _ => 0)⟩ : St S)
  let sa ← incEntriesT (ct.numSubs + 1) st.sa
  toPointersT w.sj ht.buf ct.bwpBase s T1 (ct.numSubs + 1) sa

theorem erase_prep (S : Type) [SaStore S] (w : World) (s : Mem Nat) (T1 : PackedArray) (ht : HashTable) (ct : Container) :
    erase (prepT S w s T1 ht ct) = prep S w s T1 ht ct := by
  simp only [prepT, prep, erase_bind, erase_sais, erase_incEntries, erase_toPointers]

theorem bind_assocT {α β γ : Type} (x : TM α) (f : α → TM β) (g : β → TM γ) :
    (x >>= f) >>= g = x >>= fun a => f a >>= g := by
  show bind' (bind' x f) g = bind' x (fun a => bind' (f a) g)
  cases x with
  | error e => rfl
  | ok r =>
    simp only [bind']
    cases f r.1 with
    | error e => rfl
    | ok q =>
      simp only
      cases g q.1 with
      | error e => rfl
      | ok u => simp only [Nat.add_assoc]; rfl

theorem branchT_eq_prep (S : Type) [SaStore S] (w : World) (s : Mem Nat) (T1 : PackedArray) (ht : HashTable) (ct : Container) :
    branchT S w s T1 ht ct = prepT S w s T1 ht ct >>= fun sa => induceBwtT w.qj w.bj w.sj (ct.n + 2) ht.buf sa ct := by
  simp only [branchT, prepT, bind_assocT]

theorem Ready.cost_branch (H : Ready T n ct ht s str R T1) (hmin : ∀ i, i < n → T.data n ≤ T.data i) (S : Type) [LawfulSaStore S] (w : World)
    (hcs : T1.bits ≠ width S) (hnum : lmsN T.data n + 2 < 2 ^ (width S - 1)) (hmax : ct.saMax < 2 ^ (width S - 1)) :
    CostLe (branchT S w s T1 ht ct) (71 * lmsN T.data n + 2 * n + 5497) := by
  have hu := H.ule
  rw [branchT_eq_prep]
  refine CostLe.mono (a := (12 * (ct.numUnique + 2) + 56 * (lmsN T.data n + 1) + (lmsN T.data n + 1 + (lmsN T.data n + 1))) +
    (2 * n + ct.numSubs + 5415)) ?_ (by rw [H.num]; omega)
  refine CostLe.bindV (by rw [erase_prep]; exact H.prep_spec hmin S w hcs hnum hmax) ?_ ?_
  · unfold prepT
    rw [H.num]
    refine CostLe.bind ?_ fun st => ?_
    · have hsais := cost_sais (S := S) w.cj 64 { txt := .packed T1.arr, cs := T1.bits, sj := w.sj } 0 (lmsN T.data n + 1)
        (ct.numUnique + 2) ⟨fresh (lmsN T.data n + 2) w.aj, fresh 0 (fun _ => 0)⟩ (fun i => (shortText T.data n R).getD i 0)
      have hlen := shortText_length (T := T.data) (n := n) (R := R)
      refine hsais (by omega) ?_ ?_ ?_ ?_ ?_
      · exact_mod_cast (show lmsN T.data n + 1 < 2 ^ (width S - 1) by omega)
      · exact_mod_cast (show ct.numUnique + 2 ≤ 2 ^ (width S - 1) by omega)
      · intro i hi
        have hi' : i < (shortText T.data n R).length := by omega
        have hc : (shortText T.data n R)[i] ∈ shortText T.data n R := List.getElem_mem hi'
        have : (shortText T.data n R).getD i 0 = (shortText T.data n R)[i] := by simp [hi']
        rw [this]
        generalize (shortText T.data n R)[i] = c at hc
        unfold shortText at hc
        rcases List.mem_append.1 hc with hc | hc
        · obtain ⟨x, hx, rfl⟩ := List.mem_map.1 hc
          have := (H.name _ (lpos_spec (List.mem_range.1 hx)).1).2.1
          omega
        · simp at hc; omega
      · refine ⟨hcs, fun i hi => ?_⟩
        obtain ⟨v, h1, h2⟩ := H.holds w.sj i (by omega)
        have hi' : i < (shortText T.data n R).length := by omega
        exact ⟨v, h1, by simp [h2, hi']⟩
      · show lmsN T.data n + 1 + 0 ≤ size (fresh (lmsN T.data n + 2) w.aj : S)
        rw [size_fresh]; omega
    · refine CostLe.bind ?_ fun sa => ?_
      · exact (CostLe.loopUp (b := 0) fun _ _ => CostLe.lift _ _).mono (by omega)
      · exact (CostLe.loopUp (b := 0) fun _ _ => CostLe.lift _ _).mono (by omega)
  · rintro sa3 ⟨X, σ, Y, hsort⟩
    rw [H.nn]
    exact cost_induceBwt w.qj w.bj w.sj (n + 2) ht.buf sa3 ct (Nat.le_refl _) H.nn Y H.counts hsort H.sM2 H.sM3 H.sC2

theorem CostLe.someT {x : TM BwtResult} {b : Nat} (h : CostLe x b) : CostLe (someT x) b :=
  (CostLe.bind (b := 0) h fun _ => CostLe.pure _ _).mono (by omega)

theorem Ready.cost_finish (H : Ready T n ct ht s str R T1) (hmin : ∀ i, i < n → T.data n ≤ T.data i) (w : World) :
    CostLe (finishT w s T1 ct) (71 * lmsN T.data n + 2 * n + 5497) := by
  obtain ⟨mn, hbase, hmn, _, hmax⟩ := H.sorted.base
  have hsm := H.sorted.small
  have hlt := H.num_lt
  have hu := H.ule
  have hp : (2 : Nat) ^ 52 < 2 ^ 62 := by norm_num
  have hp' : (2 : Nat) ^ 62 + 4 < 2 ^ 63 := by norm_num
  have hp'' : (2 : Nat) ^ 63 < 2 ^ 64 := by norm_num
  unfold finishT
  refine CostLe.mono (a := 0 + (0 + (71 * lmsN T.data n + 2 * n + 5497))) ?_ (by omega)
  refine CostLe.bindV (P := fun x => ht = x) (by rw [erase_lift]; unfold tableOf; rw [H.sorted.htab]; rfl) (CostLe.lift _ _) ?_
  rintro x rfl
  simp only [H.num]
  obtain ⟨mv, hmv⟩ : ∃ x, x = if ct.saMax < lmsN T.data n + 2 then lmsN T.data n + 2 else ct.saMax := ⟨_, rfl⟩
  rw [← hmv]
  have h1 : ct.saMax ≤ mv ∧ lmsN T.data n + 2 ≤ mv ∧ mv < 2 ^ 63 := by
    rw [hmv]; split <;> omega
  obtain ⟨bits, eb, b1, b2, b3, b4⟩ := Tot_iff.1 (positionOfMsb_spec mv (by omega) (by omega))
  refine CostLe.bindV (P := fun x => bits = x) (by rw [erase_lift, eb]; rfl) (CostLe.lift _ _) ?_
  rintro x rfl
  have hT1 : T1.bits ≤ bits := by
    by_contra hc
    have : (2 : Nat) ^ bits ≤ 2 ^ (T1.bits - 1) := Nat.pow_le_pow_right (by norm_num) (by omega)
    have := H.short.bits.2
    omega
  have key : ∀ (S : Type) [LawfulSaStore S], bits < width S →
      CostLe (someT (branchT S w s T1 ht ct)) (71 * lmsN T.data n + 2 * n + 5497) := by
    intro S _ hw
    have : (2 : Nat) ^ bits ≤ 2 ^ (width S - 1) := Nat.pow_le_pow_right (by norm_num) (by omega)
    exact CostLe.someT (H.cost_branch hmin S w (by omega) (by omega) (by omega))
  split
  · exact key S32 (by assumption)
  · split
    · exact key S40 (by assumption)
    · split
      · exact key S48 (by assumption)
      · split
        · exact key S56 (by assumption)
        · split
          · exact key S64 (by assumption)
          · exact CostLe.pure _ _

end

/-- the bound -/
abbrev timeBound (ws n : Nat) : Nat := 62 * n + 276865 + ws * (6 * n * n)

theorem cost_bwtIs (w : World) (ws : Nat) {T : Mem Nat} {n : Nat} (I : Input T n) (hmin : ∀ i, i < n → T.data n ≤ T.data i) (hL : LenOK w.junk T.data n)
    (hS : SortsOK w.sorter) (freeT : Bool) : CostLe (bwtIsT w ws T n freeT) (timeBound ws n) := by
  have hn3 := I.n3
  obtain ⟨ct0, ht0, s, ct, ht, str, R, T1, e1, E, e2, e3, rdy, hu⟩ := stages_spec I hL hS w.pj w.tj w.sj
  have hln := lmsN_le (T := T.data) (n := n) (by omega)
  have hule := rdy.ule
  have hhe := headEnd_le E
  unfold bwtIsT
  refine CostLe.mono (a := (135812 + n + perChar ws n * n) + ((135556 + 4 * ct0.numUnique + ct0.headEnd) +
    ((n + perChar ws n * n) + ((71 * lmsN T.data n + 2 * n + 5497) + 0)))) ?_ ?_
  · refine CostLe.bindV (P := fun x => ct0 = x) (by rw [erase_extractLMS, e1]; rfl) (cost_extractLMS I hL.lms ws) ?_
    rintro x rfl
    refine CostLe.bindV (P := fun x => (s, ct) = x) (by rw [erase_sortLMS, e2]; rfl) (cost_sortLMS I w.junk w.pj E) ?_
    rintro x rfl
    refine CostLe.bindV (P := fun x => T1 = x) (by rw [erase_createShortened, e3]; rfl)
      (cost_createShortened I rdy.sorted rdy.num rdy.ule rdy.name ws w.tj w.sj) ?_
    rintro x rfl
    exact CostLe.bind (rdy.cost_finish hmin w) fun _ => CostLe.pure _ _
  · have : perChar ws n * n = 9 * n + ws * (3 * n * n) := by unfold perChar; ring
    have h2 : ws * (6 * n * n) = ws * (3 * n * n) + ws * (3 * n * n) := by ring
    unfold timeBound
    rw [this, h2]
    omega

end Flbwt
