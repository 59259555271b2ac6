import Verif.SaisPlace

/-!
# Proofs about `sais`: `induce_SA`
-/

namespace Flbwt

open SaStore LawfulSaStore

variable {S : Type} [LawfulSaStore S]
variable {e : Env} {s0 s : St S} {T : Nat → Nat} {L : Lay} {A Bf Cf : Nat → Int} {r : Nat → Nat}

/-- the counters are intact when they have their own space -/
def CInt (T : Nat → Nat) (L : Lay) (Cf : Nat → Int) : Prop :=
  L.C ≠ L.B → ∀ c, c < L.k → Cf c = (occ T L.n c : Int)

/-- memory during an induce pass: `c1` cached bucket, `V` logical bucket pointers -/
structure IndR (L : Lay) (s0 : St S) (T : Nat → Nat) (x : Ind S) (A V : Nat → Int) : Prop where
  ex : ∃ (c1 : Nat) (Bf Cf : Nat → Int), x.c1 = c1 ∧ c1 < L.k ∧ Rp L s0 x.s A Bf Cf ∧ CInt T L Cf ∧
    V c1 = x.b ∧ ∀ c, c < L.k → c ≠ c1 → V c = Bf c

theorem switchBucket_spec (X : Ctx e s0 T L) {x : Ind S} {V : Nat → Int} (h : IndR L s0 T x A V)
    (hV : ∀ c, c < L.k → 0 ≤ V c ∧ V c ≤ L.n) {c0 : Nat} (hc0 : c0 < L.k) :
    Tot (switchBucket L.B x (c0 : Int)) (fun x' => IndR L s0 T x' A V ∧ x'.c1 = (c0 : Int) ∧ x'.b = V c0) := by
  obtain ⟨c1, Bf, Cf, h1, h2, h3, h4, h5, h6⟩ := h.ex
  unfold switchBucket
  split
  · next hne =>
    rw [h1] at hne
    have hv := hV c1 h2
    obtain ⟨s', e1, r1⟩ := h3.stB X.ok h2 (v := x.b) (X.fit (by omega) (by omega))
    rw [h1, Tot_bind, e1]
    simp only [Tot_ok, Tot_bind]
    rw [r1.ldB X.ok hc0, fupd_ne _ _ (by omega)]
    simp only [Tot_ok]
    refine ⟨⟨c0, _, _, rfl, hc0, r1, ?_, ?_, ?_⟩, trivial, (h6 c0 hc0 (by omega)).symm⟩
    · intro hCB; rw [if_neg hCB]; exact h4 hCB
    · exact h6 c0 hc0 (by omega)
    · intro c hc hne'
      by_cases hcc : c = c1
      · subst hcc; rw [fupd_self, h5]
      · rw [fupd_ne _ _ hcc]; exact h6 c hc hcc
  · next hne =>
    have hh : (c0 : Int) = x.c1 := by simpa using hne
    have : c0 = c1 := by omega
    subst this
    exact ⟨h, hh.symm, h5.symm⟩

theorem IndR.stA (X : Ctx e s0 T L) {x : Ind S} {V : Nat → Int} (h : IndR L s0 T x A V) {i : Nat} (hi : i < L.n) {v : Int}
    (hv : Fit S v) : ∃ s', x.s.st (.sa 0) (i : Int) v = .ok s' ∧ IndR L s0 T { x with s := s' } (fupd A i v) V := by
  obtain ⟨c1, Bf, Cf, h1, h2, h3, h4, h5, h6⟩ := h.ex
  obtain ⟨s', e1, r1⟩ := h3.st X.ok hi hv
  exact ⟨s', e1, ⟨c1, Bf, Cf, h1, h2, r1, h4, h5, h6⟩⟩

theorem IndR.ra {x : Ind S} {V : Nat → Int} (h : IndR L s0 T x A V) : Ra L.n L.lim s0 x.s A := by
  obtain ⟨c1, Bf, Cf, h1, h2, h3, h4, h5, h6⟩ := h.ex
  exact h3.toRa

/-- moving the cached bucket pointer -/
theorem IndR.setb {x : Ind S} {V : Nat → Int} (h : IndR L s0 T x A V) {c : Nat} (hc : x.c1 = (c : Int)) (b' : Int) :
    IndR L s0 T { x with b := b' } A (fupd V c b') := by
  obtain ⟨c1, Bf, Cf, h1, h2, h3, h4, h5, h6⟩ := h.ex
  have : c = c1 := by omega
  subst this
  exact ⟨c, Bf, Cf, h1, h2, h3, h4, fupd_self _ _ _, fun d hd hne => by rw [fupd_ne _ _ hne]; exact h6 d hd hne⟩

/-! ## First pass -/

/-- what is written for an L position -/
def encL (T : Nat → Nat) (p : Nat) : Int := if 0 < p ∧ T (p - 1) < T p then -(p : Int) - 1 else p

/-- contents of an occupied slot in the first pass, before it is scanned -/
def ct1 (T : Nat → Nat) (n p : Nat) : Int := if isS T n p then (p : Int) else encL T p

theorem encL_fit (X : Ctx e s0 T L) {p : Nat} (hp : p < L.n) : -(L.n : Int) ≤ encL T p ∧ encL T p < L.n := by
  unfold encL; split <;> omega

theorem ct1_fit (X : Ctx e s0 T L) {p : Nat} (hp : p < L.n) : -(L.n : Int) ≤ ct1 T L.n p ∧ ct1 T L.n p < L.n := by
  unfold ct1; split
  · omega
  · exact encL_fit X hp

/-- occupied positions, `Pd` = pushed L positions -/
def Occ1 (T : Nat → Nat) (n : Nat) (Pd : Nat → Prop) (p : Nat) : Prop := isLMS T n p ∨ (p < n ∧ isS T n p = false ∧ Pd p)

theorem Occ1.lt {n : Nat} {Pd : Nat → Prop} {p : Nat} (h : Occ1 T n Pd p) : p < n := by
  rcases h with h | h
  · exact h.2.1
  · exact h.1
theorem Occ1.d {n : Nat} {Pd : Nat → Prop} {p : Nat} (h : Occ1 T n Pd p) : D1 T n p := by
  rcases h with h | h
  · exact Or.inr (Or.inr h)
  · exact Or.inr (Or.inl ⟨h.1, h.2.1⟩)

/-- logical bucket pointers in the first pass -/
noncomputable def V1 (T : Nat → Nat) (n : Nat) (Pd : Nat → Prop) (c : Nat) : Int :=
  (bst T n c : Int) + (cnt n (fun q => (isS T n q = false ∧ T q = c) ∧ Pd q) : Int)

theorem V1_bounds {n : Nat} {Pd : Nat → Prop} (c : Nat) : 0 ≤ V1 T n Pd c ∧ V1 T n Pd c ≤ n := by
  unfold V1
  have h1 := bst_succ (T := T) (n := n) c
  have h2 : cnt n (fun q => (isS T n q = false ∧ T q = c) ∧ Pd q) ≤ cnt n (fun q => T q = c) :=
    cnt_mono (fun q _ h => h.1.2)
  have h3 := bst_le (T := T) (n := n) (c + 1)
  omega

/-- contents of `SA` in the first pass -/
structure I1 (T : Nat → Nat) (n : Nat) (r : Nat → Nat) (i : Nat) (Pd : Nat → Prop) (A : Nat → Int) : Prop where
  oc : ∀ p, Occ1 T n Pd p → A (sl1 T n r p) = if sl1 T n r p < i then -ct1 T n p - 1 else ct1 T n p
  fr : ∀ x, x < n → (∀ p, Occ1 T n Pd p → sl1 T n r p ≠ x) → A x = if x < i then -1 else 0

structure Inv1 (L : Lay) (s0 : St S) (T : Nat → Nat) (r : Nat → Nat) (i : Nat) (Pd : Nat → Prop) (x : Ind S) : Prop where
  ex : ∃ A V, IndR L s0 T x A V ∧ I1 T L.n r i Pd A ∧ ∀ c, c < L.k → V c = V1 T L.n Pd c

theorem I1.congr {n i : Nat} {Pd Pd' : Nat → Prop} (h : I1 T n r i Pd A)
    (hp : ∀ q, q < n → isS T n q = false → (Pd q ↔ Pd' q)) : I1 T n r i Pd' A := by
  have : ∀ p, Occ1 T n Pd p ↔ Occ1 T n Pd' p := by
    intro p
    unfold Occ1
    constructor
    · rintro (h | ⟨h1, h2, h3⟩)
      · exact Or.inl h
      · exact Or.inr ⟨h1, h2, (hp p h1 h2).1 h3⟩
    · rintro (h | ⟨h1, h2, h3⟩)
      · exact Or.inl h
      · exact Or.inr ⟨h1, h2, (hp p h1 h2).2 h3⟩
  exact ⟨fun p hp => h.oc p ((this p).2 hp), fun x hx hp => h.fr x hx (fun p hp' => hp p ((this p).1 hp'))⟩

theorem V1.congr {n : Nat} {Pd Pd' : Nat → Prop}
    (hp : ∀ q, q < n → isS T n q = false → (Pd q ↔ Pd' q)) (c : Nat) : V1 T n Pd c = V1 T n Pd' c := by
  unfold V1
  congr 2
  refine cnt_congr (fun q hq => ?_)
  constructor
  · rintro ⟨h, h'⟩; exact ⟨h, (hp q hq h.1).1 h'⟩
  · rintro ⟨h, h'⟩; exact ⟨h, (hp q hq h.1).2 h'⟩

/-- the new value of slot `i` after it is scanned -/
theorem I1.flip {n i : Nat} {Pd : Nat → Prop} (h : I1 T n r i Pd A) (hi : i < n) :
    I1 T n r (i + 1) Pd (fupd A i (-A i - 1)) := by
  refine ⟨fun p hp => ?_, fun x hx hp => ?_⟩
  · have h1 := h.oc p hp
    by_cases hpi : sl1 T n r p = i
    · rw [hpi, fupd_self, if_pos (by omega)]
      rw [hpi, if_neg (by omega)] at h1
      omega
    · rw [fupd_ne _ _ hpi, h1]
      by_cases hlt : sl1 T n r p < i
      · rw [if_pos hlt, if_pos (by omega)]
      · rw [if_neg hlt, if_neg (by omega)]
  · have h1 := h.fr x hx hp
    by_cases hxi : x = i
    · subst hxi
      rw [fupd_self, if_pos (by omega), h1, if_neg (by omega)]; rfl
    · rw [fupd_ne _ _ hxi, h1]
      by_cases hlt : x < i
      · rw [if_pos hlt, if_pos (by omega)]
      · rw [if_neg hlt, if_neg (by omega)]

/-- pushing an L position -/
theorem pushL_spec (X : Ctx e s0 T L) (hr : RInj T L.n r) {i : Nat} {Pd : Nat → Prop} {x : Ind S} {V : Nat → Int}
    (h : IndR L s0 T x A V)
    (hA : I1 T L.n r i Pd A) (hV : ∀ c, c < L.k → V c = V1 T L.n Pd c) {q : Nat} (hq : q < L.n)
    (hL : isS T L.n q = false) (hc : x.c1 = (T q : Int)) (hb : x.b = V (T q)) (hnP : ¬ Pd q)
    (hrk : V1 T L.n Pd (T q) = (rk T L.n r q : Int)) (hi : i ≤ rk T L.n r q) :
    Tot (pushL e x (q : Int)) (fun x' => Inv1 L s0 T r i (fun p => Pd p ∨ p = q) x') := by
  have hTk := X.hT q hq
  have hlt := rk_lt_n (T := T) (n := L.n) (r := r) hq
  have hbv : x.b = (rk T L.n r q : Int) := by rw [hb, hV _ hTk, hrk]
  have htest : testL e x (q : Int) = .ok (decide (0 < q ∧ T (q - 1) < T q)) := by
    unfold testL
    rw [hc, uloc_fit (X.fitT hq) (by omega)]
    split
    · next h0 =>
      rw [show (q : Int) - 1 = ((q - 1 : Nat) : Int) by omega, X.chr h.ra (by omega)]
      show Except.ok _ = _
      congr 1
      simp only [decide_eq_decide]
      omega
    · next h0 =>
      congr 1
      rw [eq_comm, decide_eq_false_iff_not]
      omega
  unfold pushL
  rw [htest]
  have hval : (if (decide (0 < q ∧ T (q - 1) < T q)) = true then -(q : Int) - 1 else (q : Int)) = encL T q := by
    simp [encL]
  simp only [Tot_bind, Tot_ok]
  rw [hval, hbv]
  have he := encL_fit X hq
  obtain ⟨s', e1, r1⟩ := h.stA X hlt (v := encL T q) (X.fit (by omega) (by omega))
  rw [e1]
  simp only [Tot_ok]
  refine ⟨_, _, r1.setb hc _, ⟨?_, ?_⟩, ?_⟩
  · intro p hp
    by_cases hpq : p = q
    · subst hpq
      rw [sl1_L hL, fupd_self, if_neg (by omega)]
      simp [ct1, hL]
    · have hop : Occ1 T L.n Pd p := by
        rcases hp with hp | ⟨h1, h2, h3 | h3⟩
        · exact Or.inl hp
        · exact Or.inr ⟨h1, h2, h3⟩
        · exact absurd h3 hpq
      rw [fupd_ne]
      · exact hA.oc p hop
      · rw [← sl1_L (r := r) hL]
        intro heq
        exact hpq (sl1_inj hr hop.lt hq hop.d (Or.inr (Or.inl ⟨hq, hL⟩)) heq)
  · intro y hy hp
    have hyq : y ≠ rk T L.n r q := by
      intro heq
      refine hp q (Or.inr ⟨hq, hL, Or.inr rfl⟩) ?_
      rw [sl1_L hL]; exact heq.symm
    rw [fupd_ne _ _ hyq]
    refine hA.fr y hy (fun p hp' => hp p ?_)
    rcases hp' with h1 | ⟨h1, h2, h3⟩
    · exact Or.inl h1
    · exact Or.inr ⟨h1, h2, Or.inl h3⟩
  · intro c hc
    by_cases hcq : c = T q
    · subst hcq
      rw [fupd_self, ← hrk]
      unfold V1
      have : cnt L.n (fun p => (isS T L.n p = false ∧ T p = T q) ∧ (Pd p ∨ p = q)) =
          cnt L.n (fun p => (isS T L.n p = false ∧ T p = T q) ∧ Pd p) + 1 := by
        refine cnt_insert hq (fun p hp => ?_) (fun h => hnP h.2)
        constructor
        · rintro ⟨h, h1 | h1⟩
          · exact Or.inl ⟨h, h1⟩
          · exact Or.inr h1
        · rintro (⟨h, h1⟩ | rfl)
          · exact ⟨h, Or.inl h1⟩
          · exact ⟨⟨hL, rfl⟩, Or.inr rfl⟩
      rw [this]; omega
    · rw [fupd_ne _ _ hcq, hV c hc]
      unfold V1
      congr 2
      refine cnt_congr (fun p hp => ?_)
      constructor
      · rintro ⟨h, h1⟩; exact ⟨h, Or.inl h1⟩
      · rintro ⟨h, h1 | h1⟩
        · exact ⟨h, h1⟩
        · subst h1; exact absurd h.2.symm hcq

/-- L positions pushed when slots below `i` are scanned -/
def Pu (T : Nat → Nat) (n : Nat) (r : Nat → Nat) (i q : Nat) : Prop := q + 1 = n ∨ (q + 1 < n ∧ sl1 T n r (q + 1) < i)

/-- the slot of `q` is the bucket pointer when `q + 1` is scanned -/
theorem V1_rk (hr : RInj T n r) {q i : Nat} (hq : q < n) (hL : isS T n q = false)
    (hi : ∀ p, p < n → isS T n p = false → (Pu T n r i p ↔ k1 T n r (p + 1) < k1 T n r (q + 1))) :
    V1 T n (Pu T n r i) (T q) = (rk T n r q : Int) := by
  rw [rk_L hq hL]
  unfold V1
  rw [show cnt n (fun p => (isS T n p = false ∧ T p = T q) ∧ Pu T n r i p) =
    cnt n (fun p => (isS T n p = false ∧ T p = T q) ∧ k1 T n r p < k1 T n r q) from ?_]
  · omega
  · refine cnt_congr (fun p hp => ?_)
    constructor
    · rintro ⟨h1, h2⟩
      exact ⟨h1, (k1_lt_LL hp hq h1.2 h1.1 hL).2 ((hi p hp h1.1).1 h2)⟩
    · rintro ⟨h1, h2⟩
      exact ⟨h1, (hi p hp h1.1).2 ((k1_lt_LL hp hq h1.2 h1.1 hL).1 h2)⟩

theorem induceBody1_spec (X : Ctx e s0 T L) (hr : RInj T L.n r) {i : Nat} (hi : i < L.n) {x : Ind S}
    (h : Inv1 L s0 T r i (Pu T L.n r i) x) :
    Tot (induceBody1 e L.B i x) (Inv1 L s0 T r (i + 1) (Pu T L.n r (i + 1))) := by
  obtain ⟨A, V, h1, h2, h3⟩ := h.ex
  -- the value read
  have hsucc : ∀ q, q < L.n → isS T L.n q = false → q + 1 < L.n → sl1 T L.n r (q + 1) = i →
      Occ1 T L.n (Pu T L.n r i) (q + 1) := by
    intro q hq hL hq1 hs
    rcases D1_succ hq hL with hd | hd | hd
    · omega
    · refine Or.inr ⟨hd.1, hd.2, ?_⟩
      by_cases hlast : q + 1 + 1 = L.n
      · exact Or.inl hlast
      · refine Or.inr ⟨by omega, ?_⟩
        have := sl1_succ_lt (r := r) (show q + 1 + 1 < L.n by omega) hd.2
        rw [← sl1_L (r := r) hd.2] at this
        omega
    · exact Or.inl hd
  have hPunew : ∀ q, (Pu T L.n r (i + 1) q ↔ Pu T L.n r i q ∨ (q + 1 < L.n ∧ sl1 T L.n r (q + 1) = i)) := by
    intro q
    unfold Pu
    constructor
    · rintro (h | ⟨h, h'⟩)
      · exact Or.inl (Or.inl h)
      · by_cases hh : sl1 T L.n r (q + 1) = i
        · exact Or.inr ⟨h, hh⟩
        · exact Or.inl (Or.inr ⟨h, by omega⟩)
    · rintro ((h | ⟨h, h'⟩) | ⟨h, h'⟩)
      · exact Or.inl h
      · exact Or.inr ⟨h, by omega⟩
      · exact Or.inr ⟨h, by omega⟩
  unfold induceBody1
  rw [Tot_bind, h1.ra.ld hi]
  simp only [Tot_ok, Tot_bind]
  by_cases hocc : ∃ p, Occ1 T L.n (Pu T L.n r i) p ∧ sl1 T L.n r p = i
  · obtain ⟨p, hp, hpi⟩ := hocc
    have hAi : A i = ct1 T L.n p := by
      have := h2.oc p hp
      rw [hpi, if_neg (by omega)] at this
      exact this
    have hf := ct1_fit X hp.lt
    obtain ⟨s', e1, r1⟩ := h1.stA X hi (v := -A i - 1) (X.fit (by omega) (by omega))
    rw [e1]
    simp only [Tot_ok]
    have h2' := h2.flip hi
    by_cases hpos : 0 < A i
    · rw [if_pos hpos]
      have hp0 : 0 < p ∧ A i = p ∧ isS T L.n (p - 1) = false := by
        rcases hp with hp | ⟨hpn, hp, _⟩
        · refine ⟨hp.1, ?_, hp.2.2.2⟩
          rw [hAi]; simp [ct1, hp.2.2.1]
        · rw [hAi] at hpos
          have h4 : ct1 T L.n p = encL T p := by simp [ct1, hp]
          rw [h4] at hpos hAi
          unfold encL at hpos hAi
          split at hpos
          · omega
          · next hh =>
            rw [if_neg hh] at hAi
            have hpp : 0 < p := by omega
            refine ⟨hpp, hAi, ?_⟩
            have hst := isS_step (T := T) (n := L.n) (p := p - 1) (by omega)
            rw [Nat.sub_add_cancel hpp] at hst
            rw [hst, hp]
            simp
            omega
      obtain ⟨hp0, hAp, hLq⟩ := hp0
      obtain ⟨q, rfl⟩ : ∃ q, p = q + 1 := ⟨p - 1, by omega⟩
      simp only [Nat.add_sub_cancel] at hLq
      have hqn : q < L.n := by have := hp.lt; omega
      rw [show A i - 1 = (q : Int) by omega]
      have hch : Flbwt.chr e s' (q : Int) = .ok (T q : Int) := X.chr r1.ra hqn
      rw [hch]
      simp only [Tot_bind, Tot_ok]
      rw [loc_fit (X.fitT hqn)]
      refine Tot.mono (switchBucket_spec X r1 (fun c hc => by rw [h3 c hc]; exact V1_bounds c) (X.hT q hqn)) ?_
      rintro x' ⟨hx1, hx2, hx3⟩
      have hlt := sl1_succ_lt (r := r) (n := L.n) (T := T) hp.lt hLq
      rw [hpi] at hlt
      have hnew : ∀ p', p' < L.n → isS T L.n p' = false →
          (Pu T L.n r i p' ↔ k1 T L.n r (p' + 1) < k1 T L.n r (q + 1)) := by
        intro p' hp' hL'
        unfold Pu
        by_cases hlast : p' + 1 = L.n
        · refine ⟨fun _ => ?_, fun _ => Or.inl hlast⟩
          rw [k1_n (by omega)]
          rcases hp.d with hd | hd | hd
          · have := hp.lt; omega
          · rw [k1_L hd.1 hd.2]; exact List.Lex.nil
          · rw [k1_S hd.2.1 hd.2.2.1]; exact List.Lex.nil
        · rw [← sl1_lt_iff hr (p := p' + 1) (q := q + 1) (by omega) hp.lt (D1_succ hp' hL') hp.d, hpi]
          constructor
          · rintro (a | ⟨a, b⟩)
            · exact absurd a hlast
            · exact b
          · intro b; exact Or.inr ⟨by omega, b⟩
      have := pushL_spec X hr hx1 h2' h3 hqn hLq hx2 hx3 (by
        rintro (hh | ⟨_, hh⟩)
        · have := hp.lt; omega
        · omega) (V1_rk hr hqn hLq hnew) (by omega)
      refine this.mono ?_
      intro x'' hx''
      obtain ⟨A'', V'', g1, g2, g3⟩ := hx''.ex
      have hcg : ∀ p', p' < L.n → isS T L.n p' = false →
          ((Pu T L.n r i p' ∨ p' = q) ↔ Pu T L.n r (i + 1) p') := by
        intro p' hp' hL'
        rw [hPunew]
        constructor
        · rintro (a | a)
          · exact Or.inl a
          · subst a; exact Or.inr ⟨hp.lt, hpi⟩
        · rintro (a | ⟨a, b⟩)
          · exact Or.inl a
          · right
            have := sl1_inj hr a hp.lt (hsucc p' hp' hL' a b).d hp.d (by omega)
            omega
      exact ⟨A'', V'', g1, g2.congr hcg, fun c hc => by rw [g3 c hc]; exact V1.congr hcg c⟩
    · rw [if_neg hpos]
      have hcg : ∀ p', p' < L.n → isS T L.n p' = false → (Pu T L.n r i p' ↔ Pu T L.n r (i + 1) p') := by
        intro p' hp' hL'
        rw [hPunew]
        constructor
        · exact Or.inl
        · rintro (a | ⟨a, b⟩)
          · exact a
          · exfalso
            have hpe := sl1_inj hr a hp.lt (hsucc p' hp' hL' a b).d hp.d (by omega)
            subst hpe
            apply hpos
            rw [hAi]
            unfold ct1
            split
            · omega
            · next hS =>
              unfold encL
              rw [if_neg]
              · omega
              · rintro ⟨_, hlt⟩
                simp only [Nat.add_sub_cancel] at hlt
                have hst := isS_step (T := T) (n := L.n) (p := p') a
                rw [hst] at hL'
                simp at hL'
                omega
      exact ⟨_, _, r1, h2'.congr hcg, fun c hc => by rw [h3 c hc]; exact V1.congr hcg c⟩
  · have hfree : ∀ p, Occ1 T L.n (Pu T L.n r i) p → sl1 T L.n r p ≠ i := fun p hp heq => hocc ⟨p, hp, heq⟩
    have hAi : A i = 0 := by
      have := h2.fr i hi hfree
      rwa [if_neg (by omega)] at this
    obtain ⟨s', e1, r1⟩ := h1.stA X hi (v := -A i - 1) (X.fit (by omega) (by omega))
    rw [e1]
    simp only [Tot_ok]
    have h2' := h2.flip hi
    rw [if_neg (by omega)]
    have hcg : ∀ p', p' < L.n → isS T L.n p' = false → (Pu T L.n r i p' ↔ Pu T L.n r (i + 1) p') := by
      intro p' hp' hL'
      rw [hPunew]
      constructor
      · exact Or.inl
      · rintro (a | ⟨a, b⟩)
        · exact a
        · exact absurd b (hfree _ (hsucc p' hp' hL' a b))
    exact ⟨_, _, r1, h2'.congr hcg, fun c hc => by rw [h3 c hc]; exact V1.congr hcg c⟩

/-! ## Second pass -/

/-- contents of a slot in the second pass, before it is scanned -/
def ct2 (T : Nat → Nat) (n p : Nat) : Int :=
  if isS T n p then (if p = 0 ∨ T (p - 1) > T p then -(p : Int) - 1 else p)
  else (if 0 < p ∧ T (p - 1) < T p then (p : Int) else -(p : Int) - 1)

theorem ct2_fit {n p : Nat} (hp : p < n) : -(n : Int) ≤ ct2 T n p ∧ ct2 T n p < n := by
  unfold ct2; split <;> split <;> omega

theorem ct2_pos {n p : Nat} (hp : p < n) : 0 < ct2 T n p ↔ 0 < p ∧ isS T n (p - 1) = true := by
  by_cases h0 : p = 0
  · subst h0; unfold ct2; simp
  · have hst := isS_step (T := T) (n := n) (p := p - 1) (by omega)
    rw [Nat.sub_add_cancel (by omega)] at hst
    rw [hst]
    unfold ct2
    by_cases hS : isS T n p = true
    · rw [if_pos hS, hS]; simp
      split <;> omega
    · have hS : isS T n p = false := by simpa using hS
      rw [hS]; simp
      split <;> omega

theorem ct2_val {n p : Nat} : ct2 T n p = p ∨ (ct2 T n p = -(p : Int) - 1) := by
  unfold ct2; split <;> split <;> simp

/-- logical bucket pointers in the second pass; `Pd` = pushed S positions -/
noncomputable def V2 (T : Nat → Nat) (n : Nat) (Pd : Nat → Prop) (c : Nat) : Int :=
  (bst T n (c + 1) : Int) - (cnt n (fun q => (isS T n q = true ∧ T q = c) ∧ Pd q) : Int)

theorem V2_bounds {n : Nat} {Pd : Nat → Prop} (c : Nat) : 0 ≤ V2 T n Pd c ∧ V2 T n Pd c ≤ n := by
  unfold V2
  have h1 := bst_succ (T := T) (n := n) c
  have h2 : cnt n (fun q => (isS T n q = true ∧ T q = c) ∧ Pd q) ≤ cnt n (fun q => T q = c) :=
    cnt_mono (fun q _ h => h.1.2)
  have h3 := bst_le (T := T) (n := n) (c + 1)
  omega

theorem V2.congr {n : Nat} {Pd Pd' : Nat → Prop}
    (hp : ∀ q, q < n → isS T n q = true → (Pd q ↔ Pd' q)) (c : Nat) : V2 T n Pd c = V2 T n Pd' c := by
  unfold V2
  congr 2
  refine cnt_congr (fun q hq => ?_)
  constructor
  · rintro ⟨h, h'⟩; exact ⟨h, (hp q hq h.1).1 h'⟩
  · rintro ⟨h, h'⟩; exact ⟨h, (hp q hq h.1).2 h'⟩

/-- contents of `SA` in the second pass, slots at or above `i` scanned -/
def I2 (T : Nat → Nat) (n : Nat) (r : Nat → Nat) (i : Nat) (Pd : Nat → Prop) (A : Nat → Int) : Prop :=
  ∀ p, p < n → (isS T n p = false ∨ (isS T n p = true ∧ Pd p)) →
    A (rk T n r p) = if i ≤ rk T n r p then (p : Int) else ct2 T n p

structure Inv2 (L : Lay) (s0 : St S) (T : Nat → Nat) (r : Nat → Nat) (i : Nat) (Pd : Nat → Prop) (x : Ind S) : Prop where
  ex : ∃ A V, IndR L s0 T x A V ∧ I2 T L.n r i Pd A ∧ ∀ c, c < L.k → V c = V2 T L.n Pd c

theorem pushS_spec (X : Ctx e s0 T L) (hr : RInj T L.n r) {i : Nat} {Pd : Nat → Prop} {x : Ind S} {V : Nat → Int}
    (h : IndR L s0 T x A V)
    (hA : I2 T L.n r i Pd A) (hV : ∀ c, c < L.k → V c = V2 T L.n Pd c) {q : Nat} (hq : q < L.n)
    (hS : isS T L.n q = true) (hc : x.c1 = (T q : Int)) (hb : x.b = V (T q)) (hnP : ¬ Pd q)
    (hrk : V2 T L.n Pd (T q) - 1 = (rk T L.n r q : Int)) (hi : rk T L.n r q < i) :
    Tot (pushS e x (q : Int)) (fun x' => Inv2 L s0 T r i (fun p => Pd p ∨ p = q) x') := by
  have hTk := X.hT q hq
  have hlt := rk_lt_n (T := T) (n := L.n) (r := r) hq
  have hbv : x.b - 1 = (rk T L.n r q : Int) := by rw [hb, hV _ hTk, hrk]
  have htest : testS e x (q : Int) = .ok (decide (q = 0 ∨ T (q - 1) > T q)) := by
    unfold testS
    rw [hc, uloc_fit (X.fitT hq) (by omega)]
    split
    · next h0 =>
      congr 1
      rw [eq_comm, decide_eq_true_iff]
      omega
    · next h0 =>
      rw [show (q : Int) - 1 = ((q - 1 : Nat) : Int) by omega, X.chr h.ra (by omega)]
      show Except.ok _ = _
      congr 1
      simp only [decide_eq_decide]
      omega
  unfold pushS
  rw [htest]
  have hval : (if (decide (q = 0 ∨ T (q - 1) > T q)) = true then -(q : Int) - 1 else (q : Int)) = ct2 T L.n q := by
    simp [ct2, hS]
  simp only [Tot_bind, Tot_ok]
  rw [hval, hbv]
  have he := ct2_fit (T := T) hq
  obtain ⟨s', e1, r1⟩ := h.stA X hlt (v := ct2 T L.n q) (X.fit (by omega) (by omega))
  rw [e1]
  simp only [Tot_ok]
  refine ⟨_, _, r1.setb hc _, ?_, ?_⟩
  · intro p hp hop
    by_cases hpq : p = q
    · subst hpq
      rw [fupd_self, if_neg (by omega)]
    · rw [fupd_ne _ _ (fun heq => hpq (rk_inj hr hp hq heq))]
      refine hA p hp ?_
      rcases hop with h1 | ⟨h1, h2 | h2⟩
      · exact Or.inl h1
      · exact Or.inr ⟨h1, h2⟩
      · exact absurd h2 hpq
  · intro c hc
    by_cases hcq : c = T q
    · subst hcq
      rw [fupd_self, ← hrk]
      unfold V2
      have : cnt L.n (fun p => (isS T L.n p = true ∧ T p = T q) ∧ (Pd p ∨ p = q)) =
          cnt L.n (fun p => (isS T L.n p = true ∧ T p = T q) ∧ Pd p) + 1 := by
        refine cnt_insert hq (fun p hp => ?_) (fun h => hnP h.2)
        constructor
        · rintro ⟨h, h1 | h1⟩
          · exact Or.inl ⟨h, h1⟩
          · exact Or.inr h1
        · rintro (⟨h, h1⟩ | rfl)
          · exact ⟨h, Or.inl h1⟩
          · exact ⟨⟨hS, rfl⟩, Or.inr rfl⟩
      rw [this]; omega
    · rw [fupd_ne _ _ hcq, hV c hc]
      unfold V2
      congr 2
      refine cnt_congr (fun p hp => ?_)
      constructor
      · rintro ⟨h, h1⟩; exact ⟨h, Or.inl h1⟩
      · rintro ⟨h, h1 | h1⟩
        · exact ⟨h, h1⟩
        · subst h1; exact absurd h.2.symm hcq

theorem induceBody2_spec (X : Ctx e s0 T L) (hr : RInj T L.n r) {i : Nat} (hi : i < L.n) {x : Ind S}
    (h : Inv2 L s0 T r (i + 1) (fun q => i + 1 ≤ rk T L.n r (q + 1)) x) :
    Tot (induceBody2 e L.B i x) (Inv2 L s0 T r i (fun q => i ≤ rk T L.n r (q + 1))) := by
  obtain ⟨A, V, h1, h2, h3⟩ := h.ex
  obtain ⟨p, hp, hpi⟩ := rk_surj (T := T) hr i hi
  have hAi : A i = ct2 T L.n p := by
    have := h2 p hp (by
      cases hS : isS T L.n p with
      | false => exact Or.inl rfl
      | true => have := rk_S_lt_succ (r := r) hp hS; exact Or.inr ⟨rfl, by omega⟩)
    rw [hpi, if_neg (by omega)] at this
    exact this
  have hf := ct2_fit (T := T) hp
  unfold induceBody2
  rw [Tot_bind, h1.ra.ld hi]
  simp only [Tot_ok]
  by_cases hpos : 0 < A i
  · rw [if_pos hpos]
    rw [hAi, ct2_pos hp] at hpos
    obtain ⟨hp0, hSq⟩ := hpos
    have hAp : A i = p := by
      have h0 := (ct2_pos (T := T) hp).2 ⟨hp0, hSq⟩
      rcases ct2_val (T := T) (n := L.n) (p := p) with hv | hv <;> omega
    obtain ⟨q, rfl⟩ : ∃ q, p = q + 1 := ⟨p - 1, by omega⟩
    simp only [Nat.add_sub_cancel] at hSq
    have hqn : q < L.n := by omega
    rw [show A i - 1 = (q : Int) by omega]
    have hch : Flbwt.chr e x.s (q : Int) = .ok (T q : Int) := X.chr h1.ra hqn
    simp only [hch, Tot_bind, Tot_ok]
    rw [loc_fit (X.fitT hqn)]
    refine Tot.mono (switchBucket_spec X h1 (fun c hc => by rw [h3 c hc]; exact V2_bounds c) (X.hT q hqn)) ?_
    rintro x' ⟨hx1, hx2, hx3⟩
    have hlt := rk_S_lt_succ (r := r) hqn hSq
    have h2' : I2 T L.n r i (fun q => i + 1 ≤ rk T L.n r (q + 1)) A := by
      intro p' hp' ho
      rw [h2 p' hp' ho]
      by_cases hh : rk T L.n r p' = i
      · have := rk_inj hr hp' hp (by omega)
        subst this
        rw [if_neg (by omega), if_pos (by omega)]; omega
      · by_cases hh' : i ≤ rk T L.n r p'
        · rw [if_pos (by omega), if_pos hh']
        · rw [if_neg (by omega), if_neg hh']
    have hrk : V2 T L.n (fun q => i + 1 ≤ rk T L.n r (q + 1)) (T q) - 1 = (rk T L.n r q : Int) := by
      have hs := rk_S hr hqn hSq
      unfold V2
      rw [show cnt L.n (fun p' => (isS T L.n p' = true ∧ T p' = T q) ∧ i + 1 ≤ rk T L.n r (p' + 1)) =
        cnt L.n (fun p' => (isS T L.n p' = true ∧ T p' = T q) ∧ k2 T L.n r q < k2 T L.n r p') from ?_]
      · omega
      · refine cnt_congr (fun p' hp' => ?_)
        constructor
        · rintro ⟨h1, h2⟩
          exact ⟨h1, (k2_lt_SS hqn hp' h1.2.symm hSq h1.1).2 ((rk_lt_iff hp (isS_lt_n hp' h1.1)).1 (by omega))⟩
        · rintro ⟨h1, h2⟩
          have := (rk_lt_iff hp (isS_lt_n hp' h1.1)).2 ((k2_lt_SS hqn hp' h1.2.symm hSq h1.1).1 h2)
          exact ⟨h1, by omega⟩
    refine (pushS_spec X hr hx1 h2' h3 hqn hSq hx2 hx3 (by omega) hrk (by omega)).mono ?_
    intro x'' hx''
    obtain ⟨A'', V'', g1, g2, g3⟩ := hx''.ex
    have hcg : ∀ p', p' < L.n → isS T L.n p' = true →
        ((i + 1 ≤ rk T L.n r (p' + 1) ∨ p' = q) ↔ i ≤ rk T L.n r (p' + 1)) := by
      intro p' hp' hS'
      constructor
      · rintro (a | a)
        · omega
        · subst a; omega
      · intro a
        by_cases hh : rk T L.n r (p' + 1) = i
        · right
          have := rk_inj hr (isS_lt_n hp' hS') hp (by omega)
          omega
        · left; omega
    refine ⟨A'', V'', g1, ?_, fun c hc => by rw [g3 c hc]; exact V2.congr hcg c⟩
    intro p' hp' ho
    refine g2 p' hp' ?_
    rcases ho with ho | ⟨ho, ho'⟩
    · exact Or.inl ho
    · exact Or.inr ⟨ho, (hcg p' hp' ho).2 ho'⟩
  · rw [if_neg hpos]
    have hAp : -A i - 1 = p := by
      rcases ct2_val (T := T) (n := L.n) (p := p) with hv | hv
      · have h0 : p = 0 := by omega
        subst h0
        have : ct2 T L.n 0 = -1 := by
          unfold ct2; simp
        omega
      · omega
    obtain ⟨s', e1, r1⟩ := h1.stA X hi (v := -A i - 1) (X.fit (by omega) (by omega))
    simp only [e1, Tot_bind, Tot_ok]
    have hcg : ∀ p', p' < L.n → isS T L.n p' = true →
        ((i + 1 ≤ rk T L.n r (p' + 1)) ↔ i ≤ rk T L.n r (p' + 1)) := by
      intro p' hp' hS'
      constructor
      · omega
      · intro a
        by_cases hh : rk T L.n r (p' + 1) = i
        · exfalso
          have := rk_inj hr (isS_lt_n hp' hS') hp (by omega)
          subst this
          apply hpos
          rw [hAi, ct2_pos hp]
          exact ⟨by omega, by simpa using hS'⟩
        · omega
    refine ⟨_, _, r1, ?_, fun c hc => by rw [h3 c hc]; exact V2.congr hcg c⟩
    intro p' hp' ho
    by_cases hh : rk T L.n r p' = i
    · have := rk_inj hr hp' hp (by omega)
      subst this
      rw [hpi, fupd_self, if_pos (by omega)]; omega
    · rw [fupd_ne _ _ hh]
      rw [h2 p' hp' (by
        rcases ho with ho | ⟨ho, ho'⟩
        · exact Or.inl ho
        · exact Or.inr ⟨ho, (hcg p' hp' ho).2 ho'⟩)]
      by_cases hh' : i ≤ rk T L.n r p'
      · rw [if_pos (by omega), if_pos hh']
      · rw [if_neg (by omega), if_neg hh']

theorem recount_spec (X : Ctx e s0 T L) (h : Rp L s0 s A Bf Cf) (hC : CInt T L Cf) :
    Tot (recount e L.C L.B L.n L.k s) (fun s' => ∃ Bf' Cf', Rp L s0 s' A Bf' Cf' ∧
      ∀ c, c < L.k → Cf' c = (occ T L.n c : Int)) := by
  unfold recount
  split
  · exact getCounts_spec X h
  · next hne => exact ⟨Bf, Cf, h, hC hne⟩

/-- `induce_SA`: from the placed LMS positions to the order given by the key `k2` -/
theorem induceSA_spec (X : Ctx e s0 T L) (hr : RInj T L.n r) (h : Rp L s0 s A Bf Cf) (hP : Placed T L.n r A)
    (hC : CInt T L Cf) :
    Tot (induceSA e L.C L.B L.n L.k s) (fun s' => ∃ A' Bf' Cf', Rp L s0 s' A' Bf' Cf' ∧
      ∀ p, p < L.n → A' (rk T L.n r p) = p) := by
  have hn1 := X.n1
  have hlast : isS T L.n (L.n - 1) = false := isS_last hn1
  have hk0 : 0 < L.k := by have := X.hT 0 (by omega); omega
  unfold induceSA
  rw [Tot_bind]
  refine (recount_spec X h hC).mono ?_
  rintro s1 ⟨B1, C1, h1, hc1⟩
  rw [Tot_bind]
  refine (getBuckets_spec X h1 false hc1).mono ?_
  rintro s2 ⟨B2, C2, h2, hb2, hc2⟩
  simp only [Bool.false_eq_true, if_false] at hb2
  rw [show (L.n : Int) - 1 = ((L.n - 1 : Nat) : Int) by omega, loc_fit (X.fit (by omega) (by omega))]
  have hch := X.chr h2.toRa (i := L.n - 1) (by omega)
  simp only [hch, Tot_bind, Tot_ok]
  rw [loc_fit (X.fitT (p := L.n - 1) (by omega)), h2.ldB X.ok (X.hT _ (by omega))]
  simp only [Tot_ok]
  have hpush := pushL_spec (x := ⟨s2, (T (L.n - 1) : Int), B2 (T (L.n - 1))⟩) X hr (i := 0) (Pd := fun _ => False) (A := A) (V := B2)
    ⟨T (L.n - 1), B2, C2, rfl, X.hT _ (by omega), h2, hc2, rfl, fun c _ _ => rfl⟩
    ⟨by
      rintro p (hp | ⟨_, _, hp⟩)
      · rw [if_neg (by omega), sl1_M hp, hP.lms p hp]; simp [ct1, hp.2.2.1]
      · exact hp.elim, by
      intro x hx hp
      rw [if_neg (by omega)]
      exact hP.zero x hx (fun p hp' => by rw [← sl1_M hp']; exact hp p (Or.inl hp'))⟩
    (by
      intro c hc
      rw [hb2 c hc]; unfold V1
      rw [cnt_false (by rintro q _ ⟨_, h⟩; exact h)]; simp) (q := L.n - 1) (by omega) hlast rfl rfl (fun h => h)
    (by
      rw [rk_L (by omega) hlast]
      unfold V1
      rw [cnt_false (by rintro q _ ⟨_, h⟩; exact h), cnt_false]
      · rfl
      rintro q hq ⟨h1, h2⟩
      rw [k1_lt_LL hq (by omega) h1.2 h1.1 hlast, k1_n (p := L.n - 1 + 1) (by omega)] at h2
      exact absurd h2 (List.not_lt_nil _)) (Nat.zero_le _)
  refine hpush.mono ?_
  intro x3 hx3
  have hl1 := loopUp_spec (fun i x => Inv1 L s0 T r i (Pu T L.n r i) x) 0 L.n x3 (induceBody1 e L.B) (by
      obtain ⟨A', V', g1, g2, g3⟩ := hx3.ex
      have hcg : ∀ q, q < L.n → isS T L.n q = false → ((False ∨ q = L.n - 1) ↔ Pu T L.n r 0 q) := by
        intro q hq _
        unfold Pu
        simp only [false_or, Nat.not_lt_zero, and_false, or_false]
        omega
      exact ⟨A', V', g1, g2.congr hcg, fun c hc => by rw [g3 c hc]; exact V1.congr hcg c⟩)
    (fun i x _ hi hx => induceBody1_spec X hr (by omega) hx)
  refine hl1.mono ?_
  intro x4 hx4
  rw [Nat.zero_add] at hx4
  obtain ⟨A4, V4, g1, g2, g3⟩ := hx4.ex
  obtain ⟨c4, B4, C4, _, _, h4, hc4, _, _⟩ := g1.ex
  refine (recount_spec X h4 hc4).mono ?_
  rintro s5 ⟨B5, C5, h5, hc5⟩
  refine (getBuckets_spec X h5 true hc5).mono ?_
  rintro s6 ⟨B6, C6, h6, hb6, hc6⟩
  simp only [if_true] at hb6
  rw [show (0 : Int) = ((0 : Nat) : Int) by rfl, h6.ldB X.ok hk0]
  simp only [Tot_ok]
  have hl2 := loopDown_spec (fun i x => Inv2 L s0 T r i (fun q => i ≤ rk T L.n r (q + 1)) x) L.n ⟨s6, ((0 : Nat) : Int), B6 0⟩
    (induceBody2 e L.B) (by
      refine ⟨A4, B6, ⟨0, B6, C6, rfl, hk0, h6, hc6, rfl, fun c _ _ => rfl⟩, ?_, ?_⟩
      · intro p hp ho
        have hlt := rk_lt_n (T := T) (r := r) hp
        rw [if_neg (by omega)]
        rcases ho with ho | ⟨ho, ho'⟩
        · have := g2.oc p (Or.inr ⟨hp, ho, ?_⟩)
          · rw [sl1_L ho, if_pos hlt] at this
            rw [this]
            unfold ct1 ct2 encL
            simp only [ho]
            split <;> split <;> simp_all <;> omega
          · unfold Pu
            by_cases hh : p + 1 = L.n
            · exact Or.inl hh
            · exact Or.inr ⟨by omega, sl1_lt_n (by omega) (D1_succ hp ho)⟩
        · have := rk_lt_n (T := T) (r := r) (isS_lt_n hp ho)
          omega
      · intro c hc
        rw [hb6 c hc]
        unfold V2
        rw [cnt_false]; · simp
        rintro q hq ⟨h1, h2⟩
        have := rk_lt_n (T := T) (r := r) (isS_lt_n hq h1.1)
        omega)
    (fun i x hi hx => induceBody2_spec X hr hi hx)
  refine hl2.mono ?_
  intro x7 hx7
  obtain ⟨A7, V7, k1', k2', _⟩ := hx7.ex
  obtain ⟨c7, B7, C7, _, _, h7, _, _, _⟩ := k1'.ex
  refine ⟨A7, B7, C7, h7, fun p hp => ?_⟩
  rw [k2' p hp (by cases isS T L.n p <;> simp), if_pos (Nat.zero_le _)]

end Flbwt
