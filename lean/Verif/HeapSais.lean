import Verif.HeapInduce2

/-!
# `sais_XXbit` and the heap (proof helpers)
-/

namespace Flbwt

open SaStore

section
variable {R : Role → Prop} {h h0 : Heap} {L : List Blk} {P : Nat} {S : Type} [SaStore S] [SaBlocks S]

theorem loopUp_inv {σ : Type} {f : Nat → σ → M σ} (I : Nat → σ → Prop) (lo cnt : Nat) {a b : σ} (h : loopUp lo cnt a f = .ok b)
    (ha : I lo a) (hs : ∀ i x y, I i x → f i x = .ok y → I (i + 1) y) : I (lo + cnt) b := by
  induction cnt generalizing lo a with
  | zero => cases h; exact ha
  | succ c ih =>
    change (f lo a >>= _) = _ at h
    cases hx : f lo a with
    | error e => rw [hx] at h; cases h
    | ok x =>
      rw [hx] at h
      have := ih (lo + 1) h (hs _ _ _ ha hx)
      rwa [show lo + (c + 1) = lo + 1 + c by omega]

/-- compaction keeps at most as many entries as there are -/
theorem compact_le {e : Env} {n : Nat} {s : St S} {r : St S × Nat} (h : compact e n s = .ok r) : r.2 ≤ n := by
  unfold compact at h
  have := loopUp_inv (fun i (r : St S × Nat) => r.2 ≤ i) 0 n h (Nat.le_refl _) (by
    rintro i ⟨x, m⟩ y hx hy
    simp only at hx hy
    cases h1 : x.ld (.sa 0) i with
    | error e => rw [h1] at hy; cases hy
    | ok p =>
    rw [h1] at hy
    change (if 0 < p then _ else _) = _ at hy
    split at hy
    · cases h2 : chr e x (p - 1) with
      | error e => rw [h2] at hy; cases hy
      | ok prev =>
      rw [h2] at hy
      change (chr e x p >>= _) = _ at hy
      cases h3 : chr e x p with
      | error e => rw [h3] at hy; cases hy
      | ok c0 =>
      rw [h3] at hy
      change (if loc S prev > toI64 c0 then _ else _) = _ at hy
      split at hy
      · change (runEnd e n x p.toNat (toI64 c0) >>= _) = _ at hy
        cases h4 : runEnd e n x p.toNat (toI64 c0) with
        | error e => rw [h4] at hy; cases hy
        | ok jc =>
        rw [h4] at hy
        obtain ⟨j, c1⟩ := jc
        change (if j < n ∧ toI64 c0 < c1 then _ else _) = _ at hy
        split at hy
        · change (x.st (.sa 0) m p >>= _) = _ at hy
          cases h5 : x.st (.sa 0) m p with
          | error e => rw [h5] at hy; cases hy
          | ok x' => rw [h5] at hy; cases hy; simp only; omega
        · cases hy; simp only; omega
      · cases hy; simp only; omega
    · cases hy; simp only; omega)
  omega

theorem cBlks (k : Nat) : ∀ b ∈ arrBlks S .counters k, b.role = .counters ∧ Plain b ∧ b.role.fam = .arr := by
  intro b hb
  have := arrBlks_mem hb
  exact ⟨this, by simp [Plain, this], by rw [this]; rfl⟩

/-- the counters of a call -/
def cList (S : Type) [SaBlocks S] (fs k : Nat) : List Blk := if fs < k then arrBlks S .counters k else []

theorem cnt_new {fs k : Nat} (hR : R .counters) (a : Has h0 L h) (hp : h.peak ≤ P)
    (hP : h0.total + lbytes L + lbytes (arrBlks S .counters k) ≤ P) :
    Post R h (.ok ()) (fun _ h' => Has h0 (cList S fs k ++ L) h' ∧ h'.peak ≤ P) (whenH (fs < k) (newAllH (arrBlks S .counters k)) h) := by
  unfold cList
  refine whenH_post ?_ ?_
  · intro hc
    rw [if_pos hc]
    exact newAllH_le _ (fun b hb => ⟨by rw [(cBlks k b hb).1]; exact hR, (cBlks k b hb).2⟩) a hp (by rw [lbytes_append]; omega)
  · intro hc
    rw [if_neg hc]
    exact ⟨a, hp⟩

theorem cnt_free {fs k : Nat} (a : Has h0 (cList S fs k ++ L) h) (hp : h.peak ≤ P) :
    Post R h (.ok ()) (fun _ h' => Has h0 L h' ∧ h'.peak ≤ P) (whenH (fs < k) (freeAllH (arrBlks S .counters k)) h) := by
  unfold cList at a
  refine whenH_post ?_ ?_
  · intro hc
    rw [if_pos hc] at a
    exact freeAllH_le _ (fun b hb => (cBlks k b hb).2) a hp
  · intro hc
    rw [if_neg hc] at a
    exact ⟨a, hp⟩

/-- the state of the heap between the stages -/
def HL (h0 : Heap) (L : List Blk) (P : Nat) (h : Heap) : Prop := Has h0 L h ∧ h.peak ≤ P

/-- a computation with a known result, in front of the rest -/
theorem Post.seqv {α β : Type _} {x : H α} {v : α} {f : α → H β} {m : M β} {Q : α → Heap → Prop} {P : β → Heap → Prop}
    (hx : Post R h (.ok v) Q (x h)) (hf : ∀ h', Q v h' → Post R h' m P (f v h')) : Post R h m P ((x >>= f) h) := by
  have := Post.bind (g := fun _ => m) hx (fun a h' e hq _ _ => by cases e; exact hf h' hq)
  exact this

theorem placeCountersH_post {junk : Nat → BitVec 64} {fs n k : Nat} {s : St S} (hR : R .counters) (a : HL h0 L P h)
    (hP : h0.total + lbytes L + lbytes (arrBlks S .counters k) ≤ P) :
    Post R h (.ok (placeCounters n k fs junk s)) (fun _ h' => HL h0 (cList S fs k ++ L) P h') (placeCountersH n k fs junk s h) := by
  unfold placeCountersH
  refine Post.seq (cnt_new hR a.1 a.2 hP) ?_
  intro h1 a1 _ _
  exact Post.pure a1

theorem freeCountersH_post {fs k : Nat} {s : St S} (a : HL h0 (cList S fs k ++ L) P h) :
    Post R h (.ok (freeCounters k fs s)) (fun _ h' => HL h0 L P h') (freeCountersH k fs s h) := by
  unfold freeCountersH
  refine Post.seq (cnt_free a.1 a.2) ?_
  intro h1 a1 _ _
  exact Post.pure a1

theorem stage1H_post {junk : Nat → BitVec 64} {e : Env} {fs n k : Nat} {s : St S} (hR : R .counters) (a : HL h0 L P h)
    (hP : h0.total + lbytes L + lbytes (arrBlks S .counters k) ≤ P) :
    Post R h (stage1 junk e fs n k s) (fun r h' => HL h0 L P h' ∧ r.2.1 ≤ n) (stage1H junk e fs n k s h) := by
  unfold stage1 stage1H
  refine Post.seqv (placeCountersH_post hR a hP) ?_
  rcases placeCounters n k fs junk s with ⟨C, B, s⟩
  intro h1 a1
  refine Post.liftBind ?_
  intro s _
  refine Post.liftBind ?_
  intro s _
  refine Post.liftBind ?_
  intro s _
  refine Post.liftBind ?_
  rintro ⟨s, _⟩ _
  refine Post.liftBind ?_
  intro s _
  refine Post.seqv (freeCountersH_post a1) ?_
  intro h2 a2
  refine Post.liftBind ?_
  rintro ⟨s, m⟩ em
  refine Post.liftBind ?_
  intro s _
  refine Post.liftBind ?_
  rintro ⟨s, _⟩ _
  refine Post.liftBind ?_
  rintro ⟨s, name⟩ _
  exact Post.pure ⟨a2, compact_le em⟩

theorem stage3H_post {junk : Nat → BitVec 64} {e : Env} {fs n k m : Nat} {s : St S} (hR : R .counters) (a : HL h0 L P h)
    (hP : h0.total + lbytes L + lbytes (arrBlks S .counters k) ≤ P) :
    Post R h (stage3 junk e fs n k m s) (fun _ h' => HL h0 L P h') (stage3H junk e fs n k m s h) := by
  unfold stage3 stage3H
  refine Post.seqv (placeCountersH_post hR a hP) ?_
  rcases placeCounters n k fs junk s with ⟨C, B, s⟩
  intro h1 a1
  refine Post.liftBind ?_
  intro s _
  refine Post.liftBind ?_
  intro s _
  refine Post.liftBind ?_
  intro s _
  refine Post.liftBind ?_
  intro s _
  refine Post.liftBind ?_
  intro s _
  exact freeCountersH_post a1

theorem lbytes_arr_mono {r : Role} {j k : Nat} (h : j ≤ k) : lbytes (arrBlks S r j) ≤ lbytes (arrBlks S r k) := by
  unfold arrBlks
  induction SaBlocks.parts S with
  | nil => exact Nat.le_refl _
  | cons p l ih =>
    simp only [List.map_cons, lbytes_cons]
    have := Nat.mul_le_mul_right p h
    omega

theorem saisH_post {junk : Nat → Nat → BitVec 64} (hR : R .counters) {k0 : Nat}
    (hP : h0.total + lbytes L + lbytes (arrBlks S .counters k0) ≤ P) : ∀ (fuel : Nat) {e : Env} {fs n k : Nat} {s : St S} {h : Heap},
    HL h0 L P h → n ≤ k0 → k ≤ k0 →
    Post R h (sais junk fuel e fs n k s) (fun _ h' => HL h0 L P h') (saisH junk fuel e fs n k s h)
  | 0, _, _, _, _, _, _, _, _, _ => ⟨Step.refl _ _, Or.inl ⟨rfl, rfl⟩⟩
  | fuel + 1, e, fs, n, k, s, h, a, hn, hk => by
    have hPk := lbytes_arr_mono (S := S) (r := .counters) hk
    unfold sais saisH
    refine Post.bind (stage1H_post hR a (by omega)) ?_
    rintro ⟨s1, m, name⟩ h1 _ ⟨a1, hm⟩ _ _
    simp only at hm
    simp only
    by_cases hnm : name < m
    · rw [if_pos hnm, if_pos hnm]
      refine Post.liftBind ?_
      intro s2 _
      refine Post.bind (saisH_post hR hP fuel a1 (by omega) (by omega)) ?_
      intro s3 h3 _ a3 _ _
      refine Post.liftBind ?_
      intro s4 _
      exact stage3H_post hR a3 (by omega)
    · rw [if_neg hnm, if_neg hnm]
      exact stage3H_post hR a1 (by omega)

end
end Flbwt
