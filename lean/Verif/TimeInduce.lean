import Verif.TimeErase
import Verif.IndMain

/-!
# The number of loop iterations of `induce_bwt_XXbit` is linear
-/

namespace Flbwt

open TM

variable {T : Nat → Nat} {n z : Nat}

/-- The destructor of an empty queue: at most one block is left. -/
theorem cost_destroy {w : Nat} {q : Queue} {f : Nat → Nat} {g : Nat → Int} {A : Nat → Prop} (h : QHas w q f g A)
    (hA : ∀ j, ¬ A j) (fuel : Nat) : CostLe (q.destroyT fuel) 2 := by
  obtain ⟨l, ⟨ids, bs, lo, hi, r, r1, r2, r3, r4⟩, h2, h3, h4⟩ := h
  have hl : l = [] := by
    cases l with
    | nil => rfl
    | cons a l => exact absurd ((h4 a).1 (by simp)) (hA a)
  subst hl
  have hlen : hi - lo = 0 := by
    have := congrArg List.length r4
    simpa using this.symm
  have hids : ids.length ≤ 1 := by
    by_cases hi0 : ids = []
    · simp [hi0]
    · have := (r3 hi0).2
      have := r.ord
      omega
  unfold Queue.destroyT
  have := CostLe.whileF (fuel := fuel) (f0 := 2) (s := q) (b := 0) (f := fun q => TM.lift (
    match q.sb with
    | none => .ok (.inr q)
    | some a => do
      let blk ← q.deref (some a)
      .ok (.inl { q with sb := blk.next, heap := Queue.heapSet q.heap a none }))) (fun s => CostLe.lift _ _) (by
      obtain ⟨q', h1, _⟩ := Tot_iff.1 (Queue.destroy_aux ids q bs r.chain r.nodup r.dead r.sb)
      refine Tot_iff.2 ⟨q', ?_, trivial⟩
      have h5 := whileM_fuel_mono _ _ _ _ _ h1 (show ids.length + 1 ≤ 2 by omega)
      rw [← h5]
      simp only [erase_lift]
      rfl)
  exact this

theorem cost_deleteQueues {w : Nat} {f : Nat → Nat} {g : Nat → Int} {A : Nat → Nat → Prop} {t : Nat} {s : IndSt}
    (h : RowHas w (s.q t) f g A) (hA : ∀ c j, c < 258 → ¬ A c j) : CostLe (deleteQueuesT t s) 774 := by
  unfold deleteQueuesT
  refine CostLe.mono (a := (258 + sumUp (fun _ => 2) 0 258) + 0) ?_ (by rw [sumUp_const])
  refine CostLe.bind ?_ (fun _ => CostLe.pure _ _)
  refine CostLe.loopUpI (fun _ _ => True) _ _ _ _ _ trivial ?_
  intro c u _ hc _
  have hc' : c < 258 := by omega
  refine ⟨?_, ?_⟩
  · simp only [erase_bind, erase_lift, erase_destroy, erase_pure, Tot_bind, Mem.Tot_rd, Tot_ok]
    exact ⟨by rw [h.size]; omega, (h.has c hc').destroy⟩
  · refine CostLe.mono (a := 0 + (2 + 0)) ?_ (by omega)
    refine CostLe.bindV (P := fun q => q = (s.q t).data c) (by
      rw [erase_lift, Mem.rd_ok _ (by rw [h.size]; exact hc')]; rfl) (CostLe.lift _ _) ?_
    rintro q rfl
    exact CostLe.bind (cost_destroy (h.has c hc') (fun j => hA c j hc') _) (fun _ => CostLe.pure _ _)

theorem cost_seed {S : Type} [SaStore S] (e : IndEnv) (sa : S) (num : Nat) (s : IndSt) : CostLe (seedT e sa num s) (num + 1) :=
  (CostLe.loopDown (b := 0) fun i s => CostLe.lift _ _).mono (by omega)

theorem cost_bucketStarts (e : IndEnv) (s : IndSt) : CostLe (bucketStartsT e s) 258 := by
  unfold bucketStartsT
  exact (CostLe.bind (b := 0) (CostLe.loopUp (b := 0) fun i s => CostLe.lift _ _) (fun v => CostLe.pure _ _)).mono (by omega)

theorem cost_stackStarts (NL : Mem Nat) (s : IndSt) : CostLe (stackStartsT NL s) 258 :=
  (CostLe.loopUp (b := 0) fun i s => CostLe.lift _ _).mono (by omega)

theorem cost_bucketEnds (e : IndEnv) (s : IndSt) : CostLe (bucketEndsT e s) 257 := by
  unfold bucketEndsT
  exact (CostLe.bind (a := 0) (CostLe.lift _ _) (fun v => CostLe.loopUp (b := 0) fun i s => CostLe.lift _ _)).mono (by omega)

/-- sums of differences -/
theorem sum_tele (u : Nat → Nat) (c lo cnt : Nat) (hu : ∀ i, u i ≤ u (i + 1)) :
    sumUp (fun i => c + u (i + 1) - u i) lo cnt = c * cnt + (u (lo + cnt) - u lo) ∧ u lo ≤ u (lo + cnt) := by
  induction cnt with
  | zero => exact ⟨by simp [sumUp], Nat.le_refl _⟩
  | succ k ih =>
    rw [sumUp_succ, ih.1]
    have := hu (lo + k)
    have := ih.2
    rw [show lo + (k + 1) = lo + k + 1 by omega]
    refine ⟨?_, by omega⟩
    rw [Nat.mul_add]
    omega

section
variable {e : IndEnv} {w : Nat} {X : Nat → Nat} (Y : Layout T n e w X)
include Y

theorem cost_drain1 {s : IndSt} {fuel f0 c t : Nat} {Q : IndSt → Prop} (h : Tot (drain1 e f0 c t s) Q) :
    CostLe (drain1T e fuel c t s) f0 := by
  unfold drain1T
  unfold drain1 at h
  rw [Tot_bind] at h
  refine (CostLe.bindV (a := 0) (b := f0 * (0 + 1)) (by rw [erase_lift]; exact h) (CostLe.lift _ _) ?_).mono (by omega)
  intro m hm
  exact CostLe.whileF (fun s => CostLe.lift _ _) (by simp only [erase_lift]; exact hm.mono (fun _ _ => trivial))

theorem cost_pass1 {s : IndSt} {fuel : Nat} {NL : Mem Nat} (K : Counts T n e.M NL e.C) (hf : n + 2 ≤ fuel) (h : IInv1 T n w X z 1 s) :
    CostLe (pass1T e fuel s) (n + 771) := by
  have hb0 : bst T n 0 = 0 := cnt_false (fun q _ h => by omega)
  have h257 : bst T n 257 = n := cnt_true (fun q hq => by have := Y.byte q hq; omega)
  unfold pass1T
  let w' : Nat → Nat := fun c => 2 + bst T n (c + 1 - 1) - bst T n (c - 1)
  have hsum : sumUp w' 1 257 = 514 + n := by
    have e1 := (sum_tele (fun i => bst T n (i - 1)) 2 1 257 (fun i => bst_mono (by omega))).1
    simp only [Nat.add_sub_cancel] at e1
    rw [show (1 : Nat) + 257 - 1 = 257 by omega, h257, Nat.sub_self, hb0] at e1
    show sumUp (fun c => 2 + bst T n (c + 1 - 1) - bst T n (c - 1)) 1 257 = _
    simp only [Nat.add_sub_cancel]
    omega
  refine (CostLe.loopUpI (fun c s => IInv1 T n w X z (1 + bst T n (c - 1)) s) w' 1 257 s _ (by simpa [hb0] using h) ?_).mono (by omega)
  intro c s1 hc1 hc2 h1
  obtain ⟨a, rfl⟩ : ∃ a, c = a + 1 := ⟨c - 1, by omega⟩
  simp only [Nat.add_sub_cancel] at h1 ⊢
  refine ⟨?_, ?_⟩
  · rw [erase_bind]
    simp only [erase_drain1]
    exact Tot.bind (drainL_spec Y K (by omega) hf h1) (fun s2 h2 => drainM_spec Y K (by omega) hf h2)
  · have hz1 := sbeg_gt (T := T) (n := n) a
    have hz2 := sbeg_le (T := T) (n := n) a
    refine CostLe.mono (a := (sbeg T n a - bst T n a) + (2 + bst T n (a + 1) - sbeg T n a)) ?_ (by simp only [w', Nat.add_sub_cancel]; omega)
    refine CostLe.bindV (by rw [erase_drain1]; exact drainL_spec Y K (by omega) hf h1)
      (cost_drain1 Y (drainL_tight Y K (by omega) (Nat.le_refl _) h1)) ?_
    intro s2 h2
    exact cost_drain1 Y (drainM_tight Y K (by omega) (Nat.le_refl _) h2)

theorem cost_drain2 {s : IndSt} {fuel f0 c t : Nat} {Q : IndSt → Prop} (h : Tot (whileM f0 s (step2 e c t)) Q) :
    CostLe (whileT fuel s fun x => TM.lift (step2 e c t x)) f0 :=
  (CostLe.whileF (b := 0) (f0 := f0) (fun s => CostLe.lift _ _) (by simp only [erase_lift]; exact h.mono (fun _ _ => trivial))).mono (by omega)

theorem cost_pass2 {s : IndSt} {fuel : Nat} (hf : n + 2 ≤ fuel) (h : IInv2 T n w X z (n + 1) s) : CostLe (pass2T e fuel s) (n + 774) := by
  have hn2 := Y.n2
  have hb0 : bst T n 0 = 0 := cnt_false (fun q _ h => by omega)
  have h257 : bst T n 257 = n := cnt_true (fun q hq => by have := Y.byte q hq; omega)
  unfold pass2T
  let w' : Nat → Nat := fun c => 2 + bst T n (c + 1 - 1) - bst T n (c - 1)
  have hsum : sumUp w' 0 258 = 516 + n := by
    have e1 := (sum_tele (fun i => bst T n (i - 1)) 2 0 258 (fun i => bst_mono (by omega))).1
    simp only [Nat.add_sub_cancel] at e1
    rw [show (0 : Nat) + 258 - 1 = 257 by omega, h257, show (0 : Nat) - 1 = 0 by omega, hb0] at e1
    show sumUp (fun c => 2 + bst T n (c + 1 - 1) - bst T n (c - 1)) 0 258 = _
    simp only [Nat.add_sub_cancel]
    omega
  refine (CostLe.loopDownI (fun i s => IInv2 T n w X z (bkt T n i) s) w' 258 s _ ?_ ?_).mono (by omega)
  · show IInv2 T n w X z (1 + bst T n 257) s
    rw [h257, Nat.add_comm]; exact h
  · intro i s1 hi h1
    cases i with
    | zero =>
      have h2 : IInv2 T n w X z 0 s1 := h1.lower (by omega) (fun y hy => by
        have hb : bst T n 0 = 0 := cnt_false (fun q _ h => by omega)
        have := rho_pos (T := T) hy.1
        simp only [bkt, hb]; omega)
      have x1 : ∀ fuel, 1 ≤ fuel → whileM fuel s1 (step2 e 0 TYPE_L) = .ok s1 := fun fuel hf =>
        whileM_exit Y hf h2.qL.size ((h2.qL.has 0 (by omega)).isEmpty.2 (fun j hj => by have := hj.2.2.1; omega))
      have x2 : ∀ fuel, 1 ≤ fuel → whileM fuel s1 (step2 e 0 TYPE_S) = .ok s1 := fun fuel hf =>
        whileM_exit Y hf h2.qS.size ((h2.qS.has 0 (by omega)).isEmpty.2 (fun j hj => by have := hj.2.2.1; omega))
      refine ⟨?_, ?_⟩
      · simp only [erase_bind, erase_whileT, erase_lift]
        rw [x1 fuel (by omega)]
        simp only [Tot_bind, Tot_ok]
        rw [x2 fuel (by omega), Tot_ok]
        exact h2
      · refine CostLe.mono (a := 1 + 1) ?_ (by simp [w', hb0])
        refine CostLe.bindV (P := fun v => v = s1) (by simp only [erase_whileT, erase_lift]; rw [x1 fuel (by omega)]; rfl)
          (cost_drain2 Y (Q := fun _ => True) (by rw [x1 1 (by omega)]; trivial)) ?_
        rintro v rfl
        exact cost_drain2 Y (Q := fun _ => True) (by rw [x2 1 (by omega)]; trivial)
    | succ a =>
      refine ⟨?_, ?_⟩
      · simp only [erase_bind, erase_whileT, erase_lift]
        exact Tot.bind (drain2L_spec Y (by omega) hf h1) (fun s2 h2 => drain2S_spec Y (by omega) hf h2)
      · have hz1 := sbeg_gt (T := T) (n := n) a
        have hz2 := sbeg_le (T := T) (n := n) a
        refine CostLe.mono (a := (2 + bst T n (a + 1) - sbeg T n a) + (sbeg T n a - bst T n a)) ?_ (by simp only [w', Nat.add_sub_cancel]; omega)
        refine CostLe.bindV (by simp only [erase_whileT, erase_lift]; exact drain2L_spec Y (by omega) hf h1)
          (cost_drain2 Y (drain2L_tight Y (by omega) (Nat.le_refl _) h1)) ?_
        intro s2 h2
        exact cost_drain2 Y (drain2S_tight Y (by omega) (Nat.le_refl _) h2)

end

/-- `induce_bwt_XXbit` takes at most `2n + num + 5415` loop iterations. -/
theorem cost_induceBwt {S : Type} [SaStore S] (qj : Nat → Nat → Nat → Nat → BitVec 64) (bj : Nat → Nat) (sj : BitVec 64)
    (fuel : Nat) (buf : Mem Nat) (sa : S) (ct : Container) {X σ : Nat → Nat} (hf : n + 2 ≤ fuel) (hn : ct.n = n)
    (Y : Layout T n ⟨buf, ct.bwpBase, ct.lastptr, ct.M, ct.C, sj⟩ ct.bwpWidth X)
    (K : Counts T n ct.M ct.NL ct.C) (hσ : SaSorted T n X sa ct.numSubs σ)
    (h2 : ct.M2.size = 258) (h3 : ct.M3.size = 258) (h4 : ct.C2.size = 258) :
    CostLe (induceBwtT qj bj sj fuel buf sa ct) (2 * n + ct.numSubs + 5415) := by
  have hw64 : ct.bwpWidth ≤ 64 := by have := Y.w63; omega
  have hn2 := Y.n2
  have hnew : ∀ (t : Nat) (f : Nat → Nat) (g : Nat → Int),
      RowHas ct.bwpWidth (newQueues ct.bwpWidth (qj t)) f g (fun _ _ => False) :=
    fun t f g => RowHas.new (qj t) Y.w1 hw64 f g _ (fun _ _ h => h)
  have hle : ∀ j, j ≤ n → rho T n j < n + 1 := fun j hj => by have := rho_le (T := T) hj; omega
  unfold induceBwtT
  simp only
  refine CostLe.mono (a := (ct.numSubs + 1) + (258 + (258 + (0 + ((n + 771) + (774 + (774 + (257 + ((n + 774) + (774 + (774 + 0)))))))))))
    ?_ (by omega)
  refine CostLe.bindV (by rw [erase_seed]; exact seed_spec Y hσ (hnew TYPE_LMS _ _)) (cost_seed _ _ _ _) ?_
  rintro s1 ⟨a1, a2⟩
  refine CostLe.bindV (by
    rw [erase_bucketStarts]
    exact bucketStarts_spec (e := ⟨buf, ct.bwpBase, ct.lastptr, ct.M, ct.C, sj⟩) K (by rw [a1.M2]; exact h2)
      (by rw [a1.M3]; exact h3)) (cost_bucketStarts _ _) ?_
  rintro s2 ⟨b1, b2, b3, b4, b5, b6, b7⟩
  refine CostLe.bindV (by
    rw [erase_stackStarts]
    exact stackStarts_spec (e := ⟨buf, ct.bwpBase, ct.lastptr, ct.M, ct.C, sj⟩) K b5
      (by rw [b2, a1.C2]; exact h4) (fun k hk => (b7 k hk).1)) (cost_stackStarts _ _) ?_
  rintro s3 ⟨c1, c2, c3, c4, c5, c6, c7, c8⟩
  have hq3 : s3.q = s1.q := by rw [c1, b1]
  have hbwt3 : s3.bwt = ⟨ct.n + 1, fun i => bj i % 256⟩ := by rw [c4, b3, a1.bwt]
  refine CostLe.bindV (by
    rw [erase_lift]
    exact firstRow_spec Y (by rw [hq3, a1.q _ (by decide)]; exact hnew TYPE_L _ _) (by rw [hq3]; exact a2)
      (by rw [hq3, a1.q _ (by decide)]; exact hnew TYPE_S _ _) (by rw [c2]; exact b5) (by rw [c3]; exact b6) c6
      (by rw [hbwt3, hn]) (by rw [c2, c3]; exact b7) c7 c8 rfl) (CostLe.lift _ _) ?_
  intro s4 d4
  refine CostLe.bindV (by rw [erase_pass1]; exact pass1_spec Y K hf d4) (cost_pass1 Y K hf d4) ?_
  intro s5 d5
  refine CostLe.bindV (by rw [erase_deleteQueues]; exact d5.qM.delete) (cost_deleteQueues d5.qM (fun c j _ hj => by
    have := hle j (by have := hj.1.2.1; omega); have := hj.2.2; omega)) ?_
  intro s5' f5
  have hqL : RowHas ct.bwpWidth (s5'.q TYPE_L) X (up T n) (AL T n (n + 1) (n + 1)) := by rw [f5.q _ (by decide)]; exact d5.qL
  refine CostLe.bindV (by rw [erase_deleteQueues]; exact RowHas.delete (t := TYPE_L) (s := s5') hqL) (cost_deleteQueues hqL (fun c j _ hj => by
    have := hle j (by have := hj.1; omega); have := hj.2.2.2.2; omega)) ?_
  intro s5'' f5'
  refine CostLe.bindV (by
    rw [erase_bucketEnds]
    exact bucketEnds_spec (T := T) (n := n) (e := ⟨buf, ct.bwpBase, ct.lastptr, ct.M, ct.C, sj⟩) K
      (by simp only; rw [f5'.M2, f5.M2]; exact d5.M2s)) (cost_bucketEnds _ _) ?_
  rintro s6 ⟨e1, e2, e3, e4, e5, e6, e7⟩
  simp only at e1 e2 e3 e4 e5 e6 e7
  rw [f5'.C2, f5.C2] at e3
  rw [f5'.bwt, f5.bwt] at e4
  rw [f5'.last, f5.last] at e5
  have hI : IInv2 T n ct.bwpWidth X (s5.bwt.data (rho T n 0)) (n + 1) s6 := pass2_start hn2 d5 f5 f5' (hnew 3 _ _) e1 e3 e4 e5 e6 e7
  refine CostLe.bindV (by rw [erase_pass2]; exact pass2_spec Y hf hI) (cost_pass2 Y hf hI) ?_
  intro s7 d7
  refine CostLe.bindV (by rw [erase_deleteQueues]; exact d7.qL.delete) (cost_deleteQueues d7.qL (fun c j _ hj => by
    have := hj.2.2.2.2; omega)) ?_
  intro s8 f8
  have hqS : RowHas ct.bwpWidth (s8.q TYPE_S) X (dn T n) (AS T n 0) := by rw [f8.q _ (by decide)]; exact d7.qS
  exact CostLe.bind (cost_deleteQueues hqS (fun c j _ hj => by have := hj.2.2.2.1; omega)) (fun v => CostLe.lift _ _)

end Flbwt
