import Verif.Induce
import Mathlib.Data.List.Nodup
import Mathlib.Data.List.Perm.Subperm

/-!
# Queues holding sorted sets of text positions (proof helper)
-/

namespace Flbwt

/-- The queue holds exactly the positions `j` with `A j`, ordered by the key `g`; position `j` is represented by the
value `f j`. -/
def QHas (w : Nat) (q : Queue) (f : Nat → Nat) (g : Nat → Int) (A : Nat → Prop) : Prop :=
  ∃ l : List Nat, Queue.Rep q (l.map f) ∧ q.w = w ∧ l.Pairwise (fun a b => g a < g b) ∧ ∀ j, j ∈ l ↔ A j

theorem sorted_nodup {l : List Nat} {g : Nat → Int} (h : l.Pairwise (fun a b => g a < g b)) : l.Nodup :=
  h.imp (fun {a b} hab heq => by subst heq; omega)

theorem sorted_len {l : List Nat} {g : Nat → Int} (h : l.Pairwise (fun a b => g a < g b)) {n : Nat}
    (hb : ∀ j ∈ l, j ≤ n) : l.length ≤ n + 1 := by
  have h1 : l.Subperm (List.range (n + 1)) :=
    List.Nodup.subperm (sorted_nodup h) (fun j hj => List.mem_range.2 (by have := hb j hj; omega))
  simpa using h1.length_le

theorem QHas.new {w : Nat} (junk : Nat → Nat → BitVec 64) (h1 : 1 ≤ w) (h2 : w ≤ 64) (f : Nat → Nat) (g : Nat → Int)
    (A : Nat → Prop) (hA : ∀ j, ¬ A j) : QHas w (Queue.new w junk) f g A :=
  ⟨[], Queue.new_rep w junk h1 h2, rfl, List.Pairwise.nil, fun j => by simp [hA j]⟩

theorem QHas.congr {w : Nat} {q : Queue} {f : Nat → Nat} {g : Nat → Int} {A B : Nat → Prop}
    (h : QHas w q f g A) (hAB : ∀ j, A j ↔ B j) : QHas w q f g B := by
  obtain ⟨l, h1, h2, h3, h4⟩ := h
  exact ⟨l, h1, h2, h3, fun j => (h4 j).trans (hAB j)⟩

theorem QHas.map {w : Nat} {q : Queue} {f f' : Nat → Nat} {g g' : Nat → Int} {A : Nat → Prop}
    (h : QHas w q f g A) (hf : ∀ j, A j → f j = f' j) (hg : ∀ i j, A i → A j → g i < g j → g' i < g' j) :
    QHas w q f' g' A := by
  obtain ⟨l, h1, h2, h3, h4⟩ := h
  refine ⟨l, ?_, h2, h3.imp_of_mem (fun {a b} ha hb hab => hg a b ((h4 a).1 ha) ((h4 b).1 hb) hab), h4⟩
  rwa [← List.map_congr_left (fun j hj => hf j ((h4 j).1 hj))]

theorem ofInt_natCast_toNat {x : Nat} (h : x < 2 ^ 63) : (BitVec.ofInt 64 (x : Int)).toNat = x := by
  rw [BitVec.ofInt_natCast, BitVec.toNat_ofNat, Nat.mod_eq_of_lt (by omega)]

theorem ofNat_toInt {x : Nat} (h : x < 2 ^ 63) : (BitVec.ofNat 64 x).toInt = x := by
  rw [BitVec.toInt_eq_toNat_cond, BitVec.toNat_ofNat, Nat.mod_eq_of_lt (by omega), if_pos (by omega)]

theorem QHas.f_lt {w : Nat} {q : Queue} {f : Nat → Nat} {g : Nat → Int} {A : Nat → Prop}
    (h : QHas w q f g A) {j : Nat} (hj : A j) : f j < 2 ^ w := by
  obtain ⟨l, h1, h2, h3, h4⟩ := h
  have := h1.mem_lt (f j) (List.mem_map_of_mem ((h4 j).2 hj))
  rwa [h2] at this

section
variable {w : Nat} {q : Queue} {f : Nat → Nat} {g : Nat → Int} {A : Nat → Prop}

theorem pow_le63 (hw : w ≤ 63) : 2 ^ w ≤ 2 ^ 63 := Nat.pow_le_pow_right (by omega) hw

theorem QHas.enqueue (h : QHas w q f g A) (sj : BitVec 64) {n x : Nat} (hw : w ≤ 63) (hn : n + 2 < 2 ^ 64)
    (hb : ∀ j, A j → j ≤ n) (hx : f x < 2 ^ w) (hlt : ∀ j, A j → g j < g x) :
    Tot (q.enqueue sj (BitVec.ofInt 64 (f x : Int))) (fun q' => QHas w q' f g (fun j => A j ∨ j = x)) := by
  obtain ⟨l, h1, h2, h3, h4⟩ := h
  have hv := ofInt_natCast_toNat (Nat.lt_of_lt_of_le hx (pow_le63 hw))
  have hl := sorted_len h3 (fun j hj => hb j ((h4 j).1 hj))
  refine (Queue.enqueue_rep h1 sj (BitVec.ofInt 64 (f x : Int)) (by rw [hv, h2]; exact hx)
    (by rw [List.length_map]; omega)).mono ?_
  rintro q' ⟨h5, h6⟩
  refine ⟨l ++ [x], by rw [hv] at h5; simpa using h5, by rw [h6, h2], ?_, fun j => by simp [h4 j]⟩
  rw [List.pairwise_append]
  refine ⟨h3, by simp, fun a ha b hb => ?_⟩
  rw [List.mem_singleton.1 hb]
  exact hlt a ((h4 a).1 ha)

theorem QHas.enqueueL (h : QHas w q f g A) (sj : BitVec 64) {n x : Nat} (hw : w ≤ 63) (hn : n + 2 < 2 ^ 64)
    (hb : ∀ j, A j → j ≤ n) (hx : f x < 2 ^ w) (hlt : ∀ j, A j → g x < g j) :
    Tot (q.enqueueL sj (BitVec.ofInt 64 (f x : Int))) (fun q' => QHas w q' f g (fun j => A j ∨ j = x)) := by
  obtain ⟨l, h1, h2, h3, h4⟩ := h
  have hv := ofInt_natCast_toNat (Nat.lt_of_lt_of_le hx (pow_le63 hw))
  have hl := sorted_len h3 (fun j hj => hb j ((h4 j).1 hj))
  refine (Queue.enqueueL_rep h1 sj (BitVec.ofInt 64 (f x : Int)) (by rw [hv, h2]; exact hx)
    (by rw [List.length_map]; omega)).mono ?_
  rintro q' ⟨h5, h6⟩
  refine ⟨x :: l, by rw [hv] at h5; simpa using h5, by rw [h6, h2], ?_, fun j => by simp [h4 j, or_comm]⟩
  rw [List.pairwise_cons]
  exact ⟨fun a ha => hlt a ((h4 a).1 ha), h3⟩

theorem QHas.isEmpty (h : QHas w q f g A) : q.isEmpty = true ↔ ∀ j, ¬ A j := by
  obtain ⟨l, h1, h2, h3, h4⟩ := h
  rw [Queue.isEmpty_rep h1, List.map_eq_nil_iff]
  constructor
  · rintro rfl j hj; exact absurd ((h4 j).2 hj) (by simp)
  · intro h
    cases l with
    | nil => rfl
    | cons a l => exact absurd ((h4 a).1 (by simp)) (h a)

theorem QHas.min (h : QHas w q f g A) (hne : q.isEmpty ≠ true) : ∃ x, A x ∧ ∀ j, A j → j ≠ x → g x < g j := by
  have hne' : ¬ ∀ j, ¬ A j := fun h' => hne (h.isEmpty.2 h')
  obtain ⟨l, h1, h2, h3, h4⟩ := h
  cases l with
  | nil => exact absurd (fun j hj => absurd ((h4 j).2 hj) (by simp)) hne'
  | cons x l =>
    rw [List.pairwise_cons] at h3
    refine ⟨x, (h4 x).1 (by simp), fun j hj hjx => ?_⟩
    have := (h4 j).2 hj
    rw [List.mem_cons] at this
    exact h3.1 j (this.resolve_left hjx)

theorem QHas.dequeue (h : QHas w q f g A) (sj : BitVec 64) (hw : w ≤ 63) (hne : q.isEmpty ≠ true) :
    Tot (q.dequeue sj) (fun r => ∃ x, A x ∧ r.1 = (f x : Int) ∧ (∀ j, A j → j ≠ x → g x < g j) ∧
      QHas w r.2 f g (fun j => A j ∧ j ≠ x)) := by
  have hne' : ¬ ∀ j, ¬ A j := fun h' => hne (h.isEmpty.2 h')
  have hfl := fun {j} => h.f_lt (j := j)
  obtain ⟨l, h1, h2, h3, h4⟩ := h
  cases l with
  | nil => exact absurd (fun j hj => absurd ((h4 j).2 hj) (by simp)) hne'
  | cons x l =>
    have hx := (h4 x).1 (by simp)
    rw [List.pairwise_cons] at h3
    refine (Queue.dequeue_rep h1 sj).mono ?_
    rintro r ⟨h5, h6, h7⟩
    refine ⟨x, hx, ?_, fun j hj hjx => ?_, l, h6, by rw [h7, h2], h3.2, fun j => ?_⟩
    · rw [h5]; exact ofNat_toInt (Nat.lt_of_lt_of_le (hfl hx) (pow_le63 hw))
    · have := (h4 j).2 hj
      rw [List.mem_cons] at this
      exact h3.1 j (this.resolve_left hjx)
    · show j ∈ l ↔ A j ∧ j ≠ x
      rw [← h4 j, List.mem_cons]
      constructor
      · intro h; exact ⟨Or.inr h, fun e => by subst e; have := h3.1 j h; omega⟩
      · rintro ⟨h | h, h'⟩
        · exact absurd h h'
        · exact h

theorem QHas.destroy (h : QHas w q f g A) : Tot (q.destroy (q.cnt + 1)) (fun _ => True) := by
  obtain ⟨l, ⟨ids, bs, lo, hi, r, -⟩, -⟩ := h
  have hlen : ids.length ≤ q.cnt := by
    have h1 : ids.Subperm (List.range q.cnt) :=
      List.Nodup.subperm r.nodup (fun j hj => List.mem_range.2 (r.fresh j hj))
    simpa using h1.length_le
  obtain ⟨q', h1, h2⟩ := Tot_iff.1 (Queue.destroy_aux ids q bs r.chain r.nodup r.dead r.sb)
  exact Tot_iff.2 ⟨q', whileM_fuel_mono _ _ _ _ _ h1 (by omega), trivial⟩

end

/-! ## Rows of queues -/

/-- every queue `Q[t][c]` of a row holds the positions `j` with `A c j` -/
structure RowHas (w : Nat) (row : Mem Queue) (f : Nat → Nat) (g : Nat → Int) (A : Nat → Nat → Prop) : Prop where
  size : row.size = 258
  has : ∀ c, c < 258 → QHas w (row.data c) f g (A c)

theorem RowHas.new {w : Nat} (junk : Nat → Nat → Nat → BitVec 64) (h1 : 1 ≤ w) (h2 : w ≤ 64) (f : Nat → Nat)
    (g : Nat → Int) (A : Nat → Nat → Prop) (hA : ∀ c j, ¬ A c j) : RowHas w (newQueues w junk) f g A :=
  ⟨rfl, fun c _ => QHas.new (junk c) h1 h2 f g (A c) (hA c)⟩

variable {w : Nat} {f : Nat → Nat} {g : Nat → Int} {A : Nat → Nat → Prop}

theorem RowHas.congr {row : Mem Queue} {B : Nat → Nat → Prop} (h : RowHas w row f g A) (hAB : ∀ c j, A c j ↔ B c j) :
    RowHas w row f g B :=
  ⟨h.size, fun c hc => (h.has c hc).congr (hAB c)⟩

theorem RowHas.upd {row : Mem Queue} (h : RowHas w row f g A) {c : Nat} {q : Queue} {B : Nat → Nat → Prop}
    (hq : QHas w q f g (B c)) (hB : ∀ c' j, c' ≠ c → (A c' j ↔ B c' j)) : RowHas w (row.upd c q) f g B := by
  refine ⟨h.size, fun c' hc' => ?_⟩
  by_cases hcc : c' = c
  · subst hcc; simpa using hq
  · rw [Mem.upd_data_ne _ _ hcc]; exact (h.has c' hc').congr (fun j => hB c' j hcc)

/-- `s'` differs from `s` only in row `t` of the queues -/
structure SameBut (t : Nat) (s s' : IndSt) : Prop where
  M2 : s'.M2 = s.M2
  M3 : s'.M3 = s.M3
  C2 : s'.C2 = s.C2
  bwt : s'.bwt = s.bwt
  last : s'.last = s.last
  q : ∀ t', t' ≠ t → s'.q t' = s.q t'

theorem RowHas.delete {t : Nat} {s : IndSt} (h : RowHas w (s.q t) f g A) : Tot (deleteQueues t s) (fun s' => SameBut t s s') := by
  unfold deleteQueues
  refine Tot.bind (loopUp_spec (fun _ _ => True) 0 258 () _ trivial (fun c u _ hc _ => ?_)) (fun _ _ => ?_)
  · simp only [Tot_bind, Mem.Tot_rd, Tot_ok]
    exact ⟨by rw [h.size]; omega, (h.has c (by omega)).destroy⟩
  · rw [Tot_ok]
    exact ⟨rfl, rfl, rfl, rfl, rfl, fun t' ht => by simp only [if_neg ht]⟩

theorem setQ_eq {s : IndSt} {t c : Nat} (x : Queue) (h : c < (s.q t).size) :
    s.setQ t c x = .ok { s with q := fun t' => if t' = t then (s.q t).upd c x else s.q t' } := by
  unfold IndSt.setQ
  rw [Mem.wr_ok _ _ h]; rfl

theorem enq_row {s : IndSt} {t c n x : Nat} (h : RowHas w (s.q t) f g A) (sj : BitVec 64) (hc : c < 258) (hw : w ≤ 63)
    (hn : n + 2 < 2 ^ 64) (hb : ∀ j, A c j → j ≤ n) (hx : f x < 2 ^ w) (hlt : ∀ j, A c j → g j < g x) {v : Int}
    (hv : v = (f x : Int)) :
    Tot (s.enq sj t c v) (fun s' => SameBut t s s' ∧ RowHas w (s'.q t) f g (fun c' j => A c' j ∨ (c' = c ∧ j = x))) := by
  subst hv
  unfold IndSt.enq
  rw [Mem.rd_ok _ (by rw [h.size]; exact hc)]
  simp only [Tot_bind, Tot_ok]
  refine ((h.has c hc).enqueue sj hw hn hb hx hlt).mono (fun q' hq' => ?_)
  rw [setQ_eq q' (by rw [h.size]; exact hc), Tot_ok]
  refine ⟨⟨rfl, rfl, rfl, rfl, rfl, fun t' ht' => by simp [ht']⟩, ?_⟩
  simp only [if_true]
  exact h.upd (hq'.congr (fun j => by simp)) (fun c' j hcc => by simp [hcc])

theorem enqL_row {s : IndSt} {t c n x : Nat} (h : RowHas w (s.q t) f g A) (sj : BitVec 64) (hc : c < 258) (hw : w ≤ 63)
    (hn : n + 2 < 2 ^ 64) (hb : ∀ j, A c j → j ≤ n) (hx : f x < 2 ^ w) (hlt : ∀ j, A c j → g x < g j) {v : Int}
    (hv : v = (f x : Int)) :
    Tot (s.enqL sj t c v) (fun s' => SameBut t s s' ∧ RowHas w (s'.q t) f g (fun c' j => A c' j ∨ (c' = c ∧ j = x))) := by
  subst hv
  unfold IndSt.enqL
  rw [Mem.rd_ok _ (by rw [h.size]; exact hc)]
  simp only [Tot_bind, Tot_ok]
  refine ((h.has c hc).enqueueL sj hw hn hb hx hlt).mono (fun q' hq' => ?_)
  rw [setQ_eq q' (by rw [h.size]; exact hc), Tot_ok]
  refine ⟨⟨rfl, rfl, rfl, rfl, rfl, fun t' ht' => by simp [ht']⟩, ?_⟩
  simp only [if_true]
  exact h.upd (hq'.congr (fun j => by simp)) (fun c' j hcc => by simp [hcc])

theorem deq_row {s : IndSt} {t c : Nat} (h : RowHas w (s.q t) f g A) (sj : BitVec 64) (hc : c < 258) (hw : w ≤ 63)
    (hne : ((s.q t).data c).isEmpty ≠ true) :
    Tot (s.deq sj t c) (fun r => ∃ x, A c x ∧ r.1 = (f x : Int) ∧ (∀ j, A c j → j ≠ x → g x < g j) ∧
      SameBut t s r.2 ∧ RowHas w (r.2.q t) f g (fun c' j => A c' j ∧ ¬ (c' = c ∧ j = x))) := by
  unfold IndSt.deq
  rw [Mem.rd_ok _ (by rw [h.size]; exact hc)]
  simp only [Tot_bind, Tot_ok]
  refine ((h.has c hc).dequeue sj hw hne).mono ?_
  rintro ⟨v, q'⟩ ⟨x, h1, h2, h3, h4⟩
  simp only at h2 h4 ⊢
  rw [setQ_eq q' (by rw [h.size]; exact hc), Tot_ok]
  refine ⟨x, h1, h2, h3, ⟨rfl, rfl, rfl, rfl, rfl, fun t' ht' => by simp [ht']⟩, ?_⟩
  simp only [if_true]
  exact h.upd (h4.congr (fun j => by simp)) (fun c' j hcc => by simp [hcc])

end Flbwt
